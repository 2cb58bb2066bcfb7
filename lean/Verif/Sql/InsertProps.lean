import Verif.Sql.UpdateProps
import Verif.Query.WriteProps
import Verif.Oid.Props
/-!
C59: INSERT ... VALUES in SQL.
-/
namespace Verif.Sql

open Verif.DocVal Verif.Query Verif.PhysKey

/-! ### what is meant -/

/-- What a column of a row shows: the value of the column, nothing for other names. -/
def rowCell : List Bytes → List Lit → Bytes → Cell
  | k :: ks, l :: ls, x => if x = k then .scalar l.value else rowCell ks ls x
  | _, _, _ => .missing

/-- A document has the columns of the row, with their values, and no others; NULL may be left out. -/
def HasRow (cols : List Bytes) (row : List Lit) (d : Doc) : Prop :=
  ∀ k, d.get k = rowCell cols row k ∨ (rowCell cols row k = .scalar .na ∧ d.get k = .missing)

/-- C59 in full: after an INSERT of rows of constants every row is a document of the collection, as many as there are
rows, and no other document changes; if the rows have no `_id`s, they get new ones. -/
def C59_claim : Prop := ∀ (cols : List Bytes) (rows : List (List Lit)) (store : List Doc), Sorted store → cols.Nodup → (∀ k ∈ cols, Name k) →
  (∀ r ∈ rows, r.length = cols.length) → [95, 105, 100] ∉ cols →
  ∃ store' ids, runInsert cols (rows.map fun r => r.map Operand.lit) store = .ok (store', some ids) ∧ ids.Nodup ∧ ids.length = rows.length ∧
    (∀ i ∈ ids, byId store i = none) ∧ List.Forall₂ (fun r i => ∃ d, byId store' i = some d ∧ HasRow cols r d) rows ids ∧
    ∀ i, i ∉ ids → byId store' i = byId store i

/-- Constants: truth values, texts, integers of 64 bits. -/
def Lit.firm : Lit → Prop
  | .bool _ => True
  | .str s => s.length < 2 ^ 32
  | .int n => ITy.i64.fits n
  | _ => False

/-! ### rows to documents -/

theorem unescape_name : ∀ k : Bytes, Json.tilde ∉ k → Json.unescape k = some k := by
  intro k
  induction k with
  | nil => intro _; rfl
  | cons c k ih =>
    intro h
    rw [List.mem_cons, not_or] at h
    unfold Json.unescape
    rw [if_neg (fun e => h.1 e.symm), ih h.2]
    rfl

theorem set_name (fs : List (Bytes × Json.Node)) (k : Bytes) (hk : Name k) (v : Json.Node) :
    Json.setAt (.obj fs) k v = .ok (.obj (Json.setN k v fs), none) := by
  have e : Json.findKey (.obj fs) k = .ok (.at [] (.name k)) := by
    obtain ⟨h0, h1, h2⟩ := hk
    unfold Json.findKey
    rw [lastSlash_none k h1]
    cases k with
    | nil => exact absurd rfl h0
    | cons c k =>
      have hc : c ≠ Json.slash := fun e => h1 (by simp [e])
      simp only [Option.getD_none, List.take_zero, Json.findNode, Res.bind, List.getElem?_cons_zero, if_neg hc, Json.keyIn]
      rw [unescape_name _ h2]
  unfold Json.setAt
  rw [e]
  rfl

theorem put_firm (l : Lit) (h : l.firm) : (getValue (.lit l)).bind put = .ok l.value := by
  cases l with
  | bool b => exact Update.put_sound (.bool b) trivial
  | str s => exact Update.put_sound (.str s) h
  | int n => exact Update.put_sound (.int .i64 n) ⟨h, nofun⟩
  | num d f => exact absurd h id
  | null => exact absurd h id

theorem row_spec (cols : List Bytes) : ∀ (row : List Lit) (fs : List (Bytes × Json.Node)), row.length = cols.length → cols.Nodup → (∀ k ∈ cols, Name k) →
    (∀ l ∈ row, l.firm) → ∃ gs, trRow cols (row.map Operand.lit) (.obj fs) = .ok (.obj gs) ∧
      ∀ k, Json.lookN gs k = match rowCell cols row k with
        | .scalar v => some (.leaf v)
        | _ => Json.lookN fs k := by
  induction cols with
  | nil =>
    intro row fs h _ _ _
    cases row with
    | nil => exact ⟨fs, rfl, fun _ => rfl⟩
    | cons => cases h
  | cons c cols ih =>
    intro row fs h hn hk hl
    cases row with
    | nil => cases h
    | cons l row =>
      rw [List.nodup_cons] at hn
      obtain ⟨gs, h1, h2⟩ := ih row (Json.setN c (.leaf l.value) fs) (by simpa using h) hn.2 (fun k hk' => hk k (by simp [hk'])) (fun x hx => hl x (by simp [hx]))
      refine ⟨gs, ?_, ?_⟩
      · have hp := put_firm l (hl l (by simp))
        rw [List.map_cons]
        unfold trRow
        cases hg : getValue (.lit l) with
        | ok v =>
          rw [hg] at hp
          simp only [Res.bind] at hp ⊢
          rw [hp]
          simp only
          rw [set_name fs c (hk c (by simp))]
          exact h1
        | throws => rw [hg] at hp; cases hp
        | ub => rw [hg] at hp; cases hp
        | diverges => rw [hg] at hp; cases hp
      · intro k
        rw [h2 k, Json.lookN_setN]
        rw [show rowCell (c :: cols) (l :: row) k = if k = c then .scalar l.value else rowCell cols row k from rfl]
        by_cases e : k = c
        · subst e
          have none' : ∀ (cs : List Bytes) (ls : List Lit), k ∉ cs → rowCell cs ls k = .missing := by
            intro cs
            induction cs with
            | nil => intro ls _; rfl
            | cons c' cs ih =>
              intro ls hm
              cases ls with
              | nil => rfl
              | cons l' ls =>
                rw [List.mem_cons, not_or] at hm
                unfold rowCell
                rw [if_neg hm.1, ih ls hm.2]
          rw [none' cols row hn.1]
          simp
        · simp only [if_neg e]

theorem look_fields (fs : List (Bytes × Json.Node)) (k : Bytes) :
    look (fs.map fun p => (p.1, cellOf p.2)) k = match Json.lookN fs k with
      | some n => cellOf n
      | none => .missing := by
  induction fs with
  | nil => rfl
  | cons p fs ih =>
    obtain ⟨a, n⟩ := p
    simp only [List.map_cons, look, Json.lookN]
    by_cases h : a = k
    · rw [if_pos h, if_pos h]
    · rw [if_neg h, if_neg h, ih]

theorem rowCell_cases (cols : List Bytes) : ∀ (row : List Lit) (k : Bytes), rowCell cols row k = .missing ∨ ∃ v, rowCell cols row k = .scalar v := by
  induction cols with
  | nil => intro row k; left; cases row <;> rfl
  | cons c cols ih =>
    intro row k
    cases row with
    | nil => left; rfl
    | cons l row =>
      unfold rowCell
      split
      · right; exact ⟨_, rfl⟩
      · exact ih row k

/-- The `_id` of a row. -/
def rowId (cols : List Bytes) (row : List Lit) : Option Bytes :=
  match rowCell cols row [95, 105, 100] with
  | .scalar (.str s) => some s
  | _ => none

theorem row_doc (cols : List Bytes) (row : List Lit) (hr : row.length = cols.length) (hn : cols.Nodup) (hk : ∀ k ∈ cols, Name k) (hl : ∀ l ∈ row, l.firm)
    {s : Bytes} (hs : rowId cols row = some s) : ∃ n, trRow cols (row.map Operand.lit) (.obj []) = .ok n ∧ docId n = .ok (Oid.value (Oid.init s)) ∧
      ∀ i, HasRow cols row (UDoc.doc ⟨i, n⟩) := by
  obtain ⟨gs, h1, h2⟩ := row_spec cols row [] hr hn hk hl
  refine ⟨_, h1, ?_, ?_⟩
  · have e : rowCell cols row [95, 105, 100] = .scalar (.str s) := by
      unfold rowId at hs
      split at hs
      · rename_i s' h; cases hs; exact h
      · cases hs
    have hx := h2 [95, 105, 100]
    rw [e] at hx
    have f : Json.findNode (.obj gs) idPath = .ok (.node (.leaf (.str s))) := by
      show Json.find (.obj gs) [[95, 105, 100]] = _
      unfold Json.find
      simp only
      rw [show Json.unescape [95, 105, 100] = some [95, 105, 100] from rfl]
      simp only
      rw [hx]
      rfl
    unfold docId Update.getAs
    rw [f]
    rfl
  · intro i k
    left
    show look (gs.map fun p => (p.1, cellOf p.2)) k = _
    rw [look_fields, h2 k]
    rcases rowCell_cases cols row k with e | ⟨v, e⟩
    · rw [e]; rfl
    · rw [e]; rfl

theorem rows_docs (cols : List Bytes) (hn : cols.Nodup) (hk : ∀ k ∈ cols, Name k) (rows : List (List Lit)) (hr : ∀ r ∈ rows, r.length = cols.length)
    (hl : ∀ r ∈ rows, ∀ l ∈ r, l.firm) (hs : ∀ r ∈ rows, ∃ s, rowId cols r = some s) :
    ∃ ds, trRows cols (rows.map fun r => r.map Operand.lit) = .ok ds ∧
      List.Forall₂ (fun r d => HasRow cols r (UDoc.doc d) ∧ ∀ s, rowId cols r = some s → d.id = Oid.value (Oid.init s)) rows ds := by
  induction rows with
  | nil => exact ⟨[], rfl, .nil⟩
  | cons r rows ih =>
    obtain ⟨ds, h1, h2⟩ := ih (fun x hx => hr x (by simp [hx])) (fun x hx => hl x (by simp [hx])) (fun x hx => hs x (by simp [hx]))
    obtain ⟨s, e⟩ := hs r (by simp)
    obtain ⟨n, k1, k2, k3⟩ := row_doc cols r (hr r (by simp)) hn hk (hl r (by simp)) e
    refine ⟨⟨Oid.value (Oid.init s), n⟩ :: ds, ?_, .cons ⟨k3 _, ?_⟩ h2⟩
    rotate_left
    · intro s' hs'
      rw [e] at hs'
      cases hs'
      rfl
    · rw [List.map_cons]
      unfold trRows
      rw [k1]
      simp only [Res.bind]
      rw [k2]
      simp only
      rw [h1]

theorem simple_zip (cols : List Bytes) : simpleInsert (cols.zip cols) = true := by
  unfold simpleInsert
  induction cols with
  | nil => rfl
  | cons c cols ih => simp [ih]

theorem insert_zip (cols : List Bytes) (store batch : List Doc) : insertOp (cols.zip cols) store batch = insertOp [] store batch := by
  have e : ∀ ds st, insertLoop (cols.zip cols) st ds = insertLoop [] st ds := by
    intro ds
    induction ds with
    | nil => intro st; rfl
    | cons d ds ih =>
      intro st
      have hd : stored (cols.zip cols) d = stored [] d := by
        unfold stored
        rw [simple_zip]
        rfl
      unfold insertLoop
      rw [hd, ih]
  unfold insertOp
  cases primaryScan store batch with
  | none => rfl
  | some ds => simp only [e]

theorem value_inj {s t : Bytes} (hs : Oid.Hex24 s) (ht : Oid.Hex24 t) (h : Oid.value (Oid.init s) = Oid.value (Oid.init t)) : Oid.lower s = Oid.lower t := by
  have ps := Oid.C60_parse s
  have pt := Oid.C60_parse t
  rw [← ps.2.1 hs, ← pt.2.1 ht, Oid.eq_of_value _ _ (ps.1.trans pt.1.symm) h]

/-- The number the `_id` of a row stands for. -/
def rowKey (cols : List Bytes) (row : List Lit) : Nat := Oid.value (Oid.init ((rowId cols row).getD []))

/-- INSERT of rows of truth values, texts and integers, with different `_id`s of 24 digits none of which is stored: every
row is stored as a document with exactly its columns, under its `_id`, and no other document changes.  Missing: rows
without `_id` (`C59_noid_fails`), with another text as `_id`, NULL (`C59_null_fails`), decimal numbers
(`C59_decimal_fails`). -/
theorem C59_insert_partial (cols : List Bytes) (rows : List (List Lit)) (store : List Doc) (hst : Sorted store) (hn : cols.Nodup)
    (hk : ∀ k ∈ cols, Name k) (hr : ∀ r ∈ rows, r.length = cols.length) (hl : ∀ r ∈ rows, ∀ l ∈ r, l.firm)
    (hid : ∀ r ∈ rows, ∃ s, rowId cols r = some s ∧ Oid.Hex24 s) (hu : (rows.map fun r => (rowId cols r).map Oid.lower).Nodup)
    (hnew : ∀ r ∈ rows, byId store (rowKey cols r) = none) :
    ∃ store', runInsert cols (rows.map fun r => r.map Operand.lit) store = .ok (store', some (rows.map (rowKey cols))) ∧
      (rows.map (rowKey cols)).Nodup ∧ (∀ r ∈ rows, ∃ d, byId store' (rowKey cols r) = some d ∧ HasRow cols r d) ∧
      ∀ i, i ∉ rows.map (rowKey cols) → byId store' i = byId store i := by
  obtain ⟨ds, h1, h2⟩ := rows_docs cols hn hk rows hr hl (fun r h => by obtain ⟨s, e, -⟩ := hid r h; exact ⟨s, e⟩)
  have ids : ∀ (rs : List (List Lit)) (es : List UDoc), (∀ r ∈ rs, ∃ s, rowId cols r = some s ∧ Oid.Hex24 s) →
      List.Forall₂ (fun r d => HasRow cols r (UDoc.doc d) ∧ ∀ s, rowId cols r = some s → d.id = Oid.value (Oid.init s)) rs es →
      (es.map UDoc.doc).map Doc.id = rs.map (rowKey cols) := by
    intro rs es hs h
    induction h with
    | nil => rfl
    | cons h _ ih =>
      rename_i r d rs es hh
      obtain ⟨s, e, -⟩ := hs r (by simp)
      rw [List.map_cons, List.map_cons, List.map_cons, ih (fun x hx => hs x (by simp [hx]))]
      congr 1
      unfold rowKey
      rw [e]
      exact h.2 s e
  have hids := ids rows ds hid h2
  have hnd : (rows.map (rowKey cols)).Nodup := by
    have inj : ∀ a ∈ rows, ∀ b ∈ rows, rowKey cols a = rowKey cols b → (rowId cols a).map Oid.lower = (rowId cols b).map Oid.lower := by
      intro a ha b hb e
      obtain ⟨s, e1, x1⟩ := hid a ha
      obtain ⟨t, e2, x2⟩ := hid b hb
      unfold rowKey at e
      rw [e1, e2] at e ⊢
      exact congrArg some (value_inj x1 x2 e)
    unfold List.Nodup at hu ⊢
    rw [List.pairwise_map] at hu ⊢
    exact hu.imp_of_mem fun ha hb hne e => hne (inj _ ha _ hb e)
  have hfresh : ∀ d ∈ ds.map UDoc.doc, byId store d.id = none := by
    intro d hd
    have : d.id ∈ rows.map (rowKey cols) := by rw [← hids]; exact List.mem_map_of_mem hd
    obtain ⟨r, hr', e⟩ := List.mem_map.mp this
    rw [← e]
    exact hnew r hr'
  have huniq : UniqueIds (ds.map UDoc.doc) := by
    unfold UniqueIds
    rw [hids]
    exact hnd
  have hstored := C17_stored_partial store (ds.map UDoc.doc) hst hfresh huniq
  have hothers := C17_others [] store (ds.map UDoc.doc) hst hfresh
  refine ⟨(insertOp [] store (ds.map UDoc.doc)).1, ?_, hnd, ?_, ?_⟩
  · unfold runInsert
    rw [h1]
    simp only [Res.bind]
    rw [insert_zip, ← hids, ← hothers.2.1]
  · intro r hr'
    have find : ∀ (rs : List (List Lit)) (es : List UDoc),
        List.Forall₂ (fun r d => HasRow cols r (UDoc.doc d) ∧ ∀ s, rowId cols r = some s → d.id = Oid.value (Oid.init s)) rs es → r ∈ rs →
        ∃ d ∈ es, HasRow cols r (UDoc.doc d) ∧ ∀ s, rowId cols r = some s → d.id = Oid.value (Oid.init s) := by
      intro rs es h
      induction h with
      | nil => intro h; cases h
      | cons h _ ih =>
        intro hm
        rcases List.mem_cons.mp hm with rfl | hm
        · exact ⟨_, List.mem_cons_self, h⟩
        · obtain ⟨d, hd, x⟩ := ih hm
          exact ⟨d, List.mem_cons_of_mem _ hd, x⟩
    obtain ⟨d, hd, x1, x2⟩ := find rows ds h2 hr'
    obtain ⟨s, e, -⟩ := hid r hr'
    refine ⟨UDoc.doc d, ?_, x1⟩
    have := hstored (UDoc.doc d) (List.mem_map_of_mem hd)
    have ek : (UDoc.doc d).id = rowKey cols r := by
      unfold rowKey
      rw [e]
      exact x2 s e
    rwa [ek] at this
  · intro i hi
    refine hothers.2.2 i ?_
    intro d hd e
    apply hi
    rw [← hids, ← e]
    exact List.mem_map_of_mem hd

def exId (c : UInt8) : Bytes := List.replicate 23 48 ++ [c]
def exCols : List Bytes := [[95, 105, 100], exA, exB]
def exRows : List (List Lit) := [[.str (exId 65), .int 5, .str [120]], [.str (exId 66), .bool true, .int (-7)]]

/-- `C59_insert_partial` applies: `INSERT INTO t (_id, a, b) VALUES ('0...A', 5, 'x'), ('0...B', TRUE, -7)`. -/
example : ∃ store', runInsert exCols (exRows.map fun r => r.map Operand.lit) [⟨1, []⟩] = .ok (store', some (exRows.map (rowKey exCols))) ∧
    (exRows.map (rowKey exCols)).Nodup ∧ (∀ r ∈ exRows, ∃ d, byId store' (rowKey exCols r) = some d ∧ HasRow exCols r d) ∧
    ∀ i, i ∉ exRows.map (rowKey exCols) → byId store' i = byId [⟨1, []⟩] i := by
  apply C59_insert_partial
  · exact List.pairwise_singleton _ _
  · decide
  · intro k hk
    simp only [exCols, List.mem_cons, List.not_mem_nil, or_false] at hk
    rcases hk with rfl | rfl | rfl
    · unfold Name; decide
    · exact exA_name
    · exact exB_name
  · decide
  · intro r hr l hl
    simp only [exRows, List.mem_cons, List.not_mem_nil, or_false] at hr
    rcases hr with rfl | rfl <;> simp only [List.mem_cons, List.not_mem_nil, or_false] at hl <;> rcases hl with rfl | rfl | rfl
    · show (24 : Nat) < 2 ^ 32; decide
    · show ITy.i64.fits 5; decide
    · show (1 : Nat) < 2 ^ 32; decide
    · show (24 : Nat) < 2 ^ 32; decide
    · trivial
    · show ITy.i64.fits (-7); decide
  · intro r hr
    simp only [exRows, List.mem_cons, List.not_mem_nil, or_false] at hr
    rcases hr with rfl | rfl
    · exact ⟨exId 65, rfl, rfl, by decide⟩
    · exact ⟨exId 66, rfl, rfl, by decide⟩
  · decide
  · decide +kernel

/-- `INSERT INTO t (a) VALUES (1), (2)` stores one document: both have the null `_id`; a later INSERT is refused as a
whole and reports nothing. -/
theorem C59_noid_fails : runInsert [exA] [[.lit (.int 1)], [.lit (.int 2)]] [] = .ok ([⟨0, [(exA, .scalar (exInt 2))]⟩], some [0, 0]) ∧
    runInsert [exA] [[.lit (.int 3)]] [⟨0, [(exA, .scalar (exInt 2))]⟩] = .ok ([⟨0, [(exA, .scalar (exInt 2))]⟩], none) := by
  constructor <;> decide +kernel

theorem C59_claim_fails : ¬ C59_claim := by
  intro h
  obtain ⟨s', ids, h1, h2, -⟩ := h [exA] [[.int 1], [.int 2]] [] .nil (by decide) (by intro k hk; cases List.mem_singleton.mp hk; exact exA_name) (by decide) (by decide)
  have e := C59_noid_fails.1
  have h1 : runInsert [exA] [[.lit (.int 1)], [.lit (.int 2)]] [] = .ok (s', some ids) := h1
  rw [e] at h1
  injection h1 with h1
  injection h1 with _ h1
  injection h1 with h1
  subst h1
  exact absurd h2 (by decide)

/-- A text that is not 24 digits is taken for the null `_id`, so `'alice'` and `'bob'` are the same. -/
theorem C59_text_fails (s : Bytes) (h : ¬ Oid.Hex24 s) (n : Json.Node) (hn : Json.findNode n idPath = .ok (.node (.leaf (.str s)))) : docId n = .ok 0 := by
  unfold docId Update.getAs
  rw [hn]
  show Res.ok (Oid.value (Oid.init s)) = _
  rw [((Oid.C60_parse s).2.2 h).1]
  decide +kernel

/-- A NULL among the values: undefined. -/
theorem C59_null_fails (k : Bytes) (cols : List Bytes) (xs : List Operand) (rows : List (List Operand)) (store : List Doc) :
    runInsert (k :: cols) ((.lit .null :: xs) :: rows) store = .ub := rfl

/-- More values than columns: undefined; fewer: the row lacks the last columns. -/
theorem C59_count_fails : runInsert [exA] [[.lit (.int 1), .lit (.int 2)]] [] = .ub ∧
    runInsert [exA, exB] [[.lit (.int 1)]] [] = .ok ([⟨0, [(exA, .scalar (exInt 1))]⟩], some [0]) := by
  constructor <;> decide +kernel

/-- The decimal number 0.1 is stored as a number of 32 bits, and `a + 1` or any other expression as null; a name as a
text. -/
theorem C59_decimal_fails : runInsert [exA] [[.lit (.num 0x3fb999999999999a 0x3dcccccd)]] [] = .ok ([⟨0, [(exA, .scalar (.float 0x3dcccccd))]⟩], some [0]) ∧
    runInsert [exA] [[.expr fun _ => .scalar (exInt 2)]] [] = .ok ([⟨0, [(exA, .scalar .na)]⟩], some [0]) ∧
    runInsert [exA] [[.col none exB]] [] = .ok ([⟨0, [(exA, .scalar (.str exB))]⟩], some [0]) := by
  refine ⟨?_, ?_, ?_⟩ <;> decide +kernel

end Verif.Sql
