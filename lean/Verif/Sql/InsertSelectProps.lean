import Verif.Sql.InsertSelectModel
import Verif.Sql.InsertProps
import Verif.Sql.SelectProps
/-!
C86: what `INSERT INTO t (cols) SELECT ...` stores.
-/
namespace Verif.Sql

open Verif.DocVal Verif.Query Verif.PhysKey

/-- The document has, under the names of the columns, the values another has under the names selected, and nothing else. -/
def Carries (cols : List Bytes) (sel : List (Bytes × Bytes)) (d e : Doc) : Prop :=
  (∀ p ∈ cols.zip sel, Same (d.get p.2.2) (e.get p.1)) ∧ ∀ k, k ∉ cols → e.get k = .missing

/-- C86 in full for a list of columns: each row of the SELECT becomes a document of its own, with its values under the names
of the columns (and an `_id`), and no other document changes. -/
def C86_claim : Prop := ∀ (fpu : Fpu) (rx : Bytes → Bytes → Res Bool) (cols : List Bytes) (sel : List (Bytes × Bytes)) (src store : List Doc),
  src.length < 2 ^ 31 → Sorted src → Sorted store → cols.Nodup → (sel.map Prod.fst).Nodup → cols.length = sel.length → sel ≠ [] →
  ∀ r, runInsertSelect fpu rx cols ⟨columns sel, none, [], [], none⟩ src store r →
  ∃ store' ids, r = .ok (store', some ids) ∧ ids.Nodup ∧
    List.Forall₂ (fun d i => byId store i = none ∧ ∃ e, byId store' i = some e ∧ ∀ p ∈ cols.zip sel, Same (d.get p.2.2) (e.get p.1)) src ids ∧
    ∀ i, i ∉ ids → byId store' i = byId store i

theorem outNames_columns (sel : List (Bytes × Bytes)) : outNames (sel.map fun p => .key p.1 p.2) = sel.map Prod.fst := by
  induction sel with
  | nil => rfl
  | cons p ps ih => simp only [List.map_cons, outNames, ih]

theorem classesP_single {α : Type} (same : α → α → Bool) : ∀ (n : Nat) (l : List α), l.length ≤ n → l.Pairwise (fun a b => same a b = false) →
    classesP same l = l.map fun a => (a, []) := by
  intro n
  induction n with
  | zero =>
    intro l hl _
    have : l = [] := List.length_eq_zero_iff.mp (by omega)
    subst this
    simp [classesP]
  | succ n ih =>
    intro l hl hp
    cases l with
    | nil => simp [classesP]
    | cons a l =>
      rw [List.pairwise_cons] at hp
      have h1 : l.filter (same a) = [] := List.filter_eq_nil_iff.mpr fun b hb => by simp [hp.1 b hb]
      have h2 : l.filter (fun b => !same a b) = l := List.filter_eq_self.mpr fun b hb => by simp [hp.1 b hb]
      rw [classesP_cons, h1, h2, ih l (by simp at hl; omega) hp.2]
      rfl

/-- The rows of a list of columns. -/
theorem select_rows (fpu : Fpu) (rx : Bytes → Bytes → Res Bool) (src : List Doc) (c : Option Cond) (sel : List (Bytes × Bytes)) (hne : sel ≠ [])
    (hn : src.length < 2 ^ 31) (hc : Clear rx src c) (hg : Groupable sel (selected rx src c))
    (hk : ∀ d ∈ selected rx src c, HasKeys (sel.map Prod.snd) d = true)
    (hd : (selected rx src c).Pairwise fun a b => SameKeys (sel.map Prod.snd) a b = false) :
    (trSelect ⟨columns sel, c, [], [], none⟩).bind (rowsOf fpu rx src) = .ok ((selected rx src c).map fun d => ⟨0, rowOf sel d⟩) := by
  rw [rows_clear fpu rx src ⟨columns sel, c, [], [], none⟩ _ (trTargets_columns sel) hn hc]
  cases sel with
  | nil => exact absurd rfl hne
  | cons p ps =>
    simp only [List.map_cons]
    rw [show GExpr.key p.1 p.2 :: ps.map (fun p => GExpr.key p.1 p.2) = (p :: ps).map fun p => GExpr.key p.1 p.2 from rfl, groupPlan_columns]
    simp only [Res.bind, groupOp]
    rw [collect_classes _ _ hg, List.filter_eq_self.mpr hk, classesP_single _ _ _ (Nat.le_refl _) hd]
    simp only [Res.bind, calcAll, List.map_map]
    rfl

theorem look_none {fs : List (Bytes × Cell)} {k : Bytes} (h : k ∉ fs.map Prod.fst) : look fs k = .missing := by
  induction fs with
  | nil => rfl
  | cons q fs ih =>
    obtain ⟨n, c⟩ := q
    simp only [List.map_cons, List.mem_cons, not_or] at h
    unfold look
    rw [if_neg (Ne.symm h.1)]
    exact ih h.2

theorem same_widen (v : V) (h : Plain v) : Same (.scalar v) (.scalar (widen v)) := by
  unfold Same
  cases v <;> first | exact absurd h id | exact Or.inl ⟨rfl, rfl⟩ | exact Or.inr ⟨_, _, rfl, rfl, by simp [SameValue, widen]⟩

theorem copied_widen (v : V) (h : Plain v) : Copied (.scalar (widen v)) := by
  cases v <;> first | exact absurd h id | trivial

theorem mem_zip_snd {α β : Type} : ∀ {as : List α} {bs : List β} {p : α × β}, p ∈ as.zip bs → p.2 ∈ bs
  | _ :: _, _ :: _, p, h => by
    rcases List.mem_cons.mp h with rfl | h
    · exact List.mem_cons_self
    · exact List.mem_cons_of_mem _ (mem_zip_snd h)

/-- What is stored for a row. -/
theorem stored_carries (cols : List Bytes) (sel : List (Bytes × Bytes)) (d : Doc) (i : Nat) (hn : cols.Nodup) (hs : (sel.map Prod.fst).Nodup)
    (hl : cols.length = sel.length) (hid : idName ∈ cols) (hv : ∀ p ∈ sel, ∃ v, d.value p.2 = some v ∧ Plain v) :
    (storedRow (cols.zip (sel.map Prod.fst)) ⟨i, rowOf sel d⟩).id = i ∧ Carries cols sel d (storedRow (cols.zip (sel.map Prod.fst)) ⟨i, rowOf sel d⟩) := by
  have hv' : ∀ p ∈ sel, ∃ v, d.value p.2 = some v := fun p hp => (hv p hp).imp fun v h => h.1
  have hrow : ∀ p ∈ sel, ∃ v, d.get p.2 = .scalar v ∧ Plain v ∧ look (rowOf sel d) p.1 = .scalar (widen v) := by
    intro p hp
    obtain ⟨v, h1, h2⟩ := hv p hp
    exact ⟨v, value_get h1, h2, look_rowOf sel d hs hv' p hp v h1⟩
  have hz : cols.zip (sel.map Prod.fst) = (cols.zip sel).map fun p => (p.1, p.2.1) := by
    rw [List.zip_map_right]; rfl
  unfold storedRow
  by_cases hsimple : simpleInsert (cols.zip (sel.map Prod.fst)) = true
  · rw [if_pos hsimple]
    refine ⟨rfl, ?_, ?_⟩
    · intro p hp
      have hp2 := mem_zip_snd hp
      have e : p.1 = p.2.1 := by
        have := List.all_eq_true.mp hsimple (p.1, p.2.1) (by rw [hz]; exact List.mem_map.mpr ⟨p, hp, rfl⟩)
        exact beq_iff_eq.mp this
      obtain ⟨v, h1, h2, h3⟩ := hrow p.2 hp2
      rw [h1, show Doc.get ⟨i, rowOf sel d⟩ p.1 = .scalar (widen v) from by rw [e]; exact h3]
      exact same_widen v h2
    · intro k hk
      refine look_none (fs := rowOf sel d) ?_
      rw [rowOf_names sel d hv']
      have : cols = sel.map Prod.fst := by
        have hall := List.all_eq_true.mp hsimple
        clear hrow hv' hv hz hsimple hid hk
        have hl' : cols.length = (sel.map Prod.fst).length := by simpa using hl
        generalize sel.map Prod.fst = ns at hall hl'
        clear hs hn hl
        induction cols generalizing ns with
        | nil => cases ns with
          | nil => rfl
          | cons _ _ => cases hl'
        | cons c cs ih => cases ns with
          | nil => cases hl'
          | cons n ns =>
            have h1 := beq_iff_eq.mp (hall (c, n) List.mem_cons_self)
            rw [ih ns (fun x hx => hall x (List.mem_cons_of_mem _ hx)) (by simpa using hl')]
            simp only at h1
            rw [h1]
      rw [← this]
      exact hk
  · rw [if_neg hsimple]
    have hfst : (cols.zip (sel.map Prod.fst)).map Prod.fst = cols := List.map_fst_zip (by simp [hl])
    obtain ⟨c1, -, c3⟩ := copyAll_look ⟨i, rowOf sel d⟩ (cols.zip (sel.map Prod.fst)) [(idName, .scalar (.str (identText i)))] (by rw [hfst]; exact hn)
    refine ⟨rfl, ?_, ?_⟩
    · intro p hp
      obtain ⟨v, h1, h2, h3⟩ := hrow p.2 (mem_zip_snd hp)
      have hg : Doc.get ⟨i, rowOf sel d⟩ p.2.1 = .scalar (widen v) := h3
      have := c1 (p.1, p.2.1) (by rw [hz]; exact List.mem_map.mpr ⟨p, hp, rfl⟩) (by rw [hg]; exact copied_widen v h2)
      rw [h1, show Doc.get ⟨i, copyAll ⟨i, rowOf sel d⟩ (cols.zip (sel.map Prod.fst)) [(idName, .scalar (.str (identText i)))]⟩ p.1 = .scalar (widen v) from this.trans hg]
      exact same_widen v h2
    · intro k hk
      have := c3 k (by rw [hfst]; exact hk)
      refine Eq.trans this ?_
      unfold look
      rw [if_neg (fun e => hk (by rw [← e]; exact hid))]
      rfl

/-- The number the text in a field stands for. -/
def textKey (f : Bytes) (d : Doc) : Nat :=
  match d.value f with
  | some (.str s) => Oid.value (Oid.init s)
  | _ => 0

/-- `INSERT INTO t (.., _id, ..) SELECT .., f AS _id, .. FROM s WHERE c`, where the selected documents have all the columns (no
floating point numbers, objects or arrays), and in `f` different texts of 24 digits none of which is an `_id` of `t`:
every selected document gives a document of `t` under that `_id`, with exactly the values selected under the names of
the columns; no other document changes.  Missing: rows without `_id` (`C86_noid_fails`), documents without one of the
columns (`C86_missing_fails`), functions and constants (`C86_function_fails`). -/
theorem C86_columns_partial (fpu : Fpu) (rx : Bytes → Bytes → Res Bool) (cols : List Bytes) (sel : List (Bytes × Bytes)) (c : Option Cond)
    (src store : List Doc) (f : Bytes) (hsz : src.length < 2 ^ 31) (hst : Sorted store) (hc : Clear rx src c)
    (hn : cols.Nodup) (hl : cols.length = sel.length) (hid : (idName, idName, f) ∈ cols.zip sel)
    (hg : Groupable sel (selected rx src c)) (hk : ∀ d ∈ selected rx src c, HasKeys (sel.map Prod.snd) d = true)
    (hhex : ∀ d ∈ selected rx src c, ∃ s, d.value f = some (.str s) ∧ Oid.Hex24 s)
    (hu : ((selected rx src c).map (textKey f)).Nodup)
    (hnew : ∀ d ∈ selected rx src c, byId store (textKey f d) = none)
    (r : Res (List Doc × Option (List Nat))) (hr : runInsertSelect fpu rx cols ⟨columns sel, c, [], [], none⟩ src store r) :
    ∃ store', r = .ok (store', some ((selected rx src c).map (textKey f))) ∧
      (∀ d ∈ selected rx src c, ∃ e, byId store' (textKey f d) = some e ∧ Carries cols sel d e) ∧
      ∀ i, i ∉ (selected rx src c).map (textKey f) → byId store' i = byId store i := by
  have hsel : (idName, f) ∈ sel := mem_zip_snd hid
  have hne : sel ≠ [] := List.ne_nil_of_mem hsel
  have hidc : idName ∈ cols := by
    have : ∀ {as : List Bytes} {bs : List (Bytes × Bytes)} {p}, p ∈ as.zip bs → p.1 ∈ as := by
      intro as
      induction as with
      | nil => intro bs p h; simp at h
      | cons a as ih =>
        intro bs p h
        cases bs with
        | nil => simp at h
        | cons b bs =>
          rcases List.mem_cons.mp h with rfl | h
          · exact List.mem_cons_self
          · exact List.mem_cons_of_mem _ (ih h)
    exact this hid
  have hdist : (selected rx src c).Pairwise fun a b => SameKeys (sel.map Prod.snd) a b = false := by
    unfold List.Nodup at hu
    rw [List.pairwise_map] at hu
    refine hu.imp_of_mem fun {a b} ha hb hab => ?_
    cases hh : SameKeys (sel.map Prod.snd) a b with
    | false => rfl
    | true =>
      exfalso
      rw [SameKeys.iff] at hh
      obtain ⟨x, y, hx, hy, hxy⟩ := hh f (List.mem_map.mpr ⟨_, hsel, rfl⟩)
      obtain ⟨s, es, -⟩ := hhex a ha
      obtain ⟨t, et, -⟩ := hhex b hb
      rw [es] at hx; rw [et] at hy
      cases hx; cases hy
      apply hab
      have : s = t := by simpa [SameValue] using hxy
      unfold textKey
      rw [es, et, this]
  have hvals : ∀ d ∈ selected rx src c, ∀ p ∈ sel, ∃ v, d.value p.2 = some v ∧ Plain v := by
    intro d hd p hp
    obtain ⟨v, hv⟩ := Option.isSome_iff_exists.mp (List.all_eq_true.mp (hk d hd) p.2 (List.mem_map.mpr ⟨p, hp, rfl⟩))
    exact ⟨v, hv, hg.plain p hp d hd v hv⟩
  have hrows := select_rows fpu rx src c sel hne hsz hc hg hk hdist
  -- the plan
  obtain ⟨p, hp1, hp2⟩ : ∃ p, trSelect ⟨columns sel, c, [], [], none⟩ = .ok p ∧ p.group = sel.map fun p => .key p.1 p.2 := by
    cases ht : trSelect ⟨columns sel, c, [], [], none⟩ with
    | ok p =>
      refine ⟨p, rfl, ?_⟩
      unfold trSelect at ht
      simp only [trTargets_columns, Res.bind] at ht
      cases c with
      | none => cases ht; rfl
      | some c =>
        simp only at ht
        cases hw : trWhere c [] with
        | ok x => rw [hw] at ht; cases ht; rfl
        | throws => rw [hw] at ht; cases ht
        | ub => rw [hw] at ht; cases ht
        | diverges => rw [hw] at ht; cases ht
    | throws => rw [ht] at hrows; cases hrows
    | ub => rw [ht] at hrows; cases hrows
    | diverges => rw [ht] at hrows; cases hrows
  obtain ⟨q, hq, hr⟩ := hr
  unfold runSelect at hq
  rw [hrows] at hq
  simp only [if_true] at hq
  subst hq
  rw [hp1] at hr
  simp only [Res.bind] at hr
  have hnames : insertNames cols p.group = .ok (cols.zip (sel.map Prod.fst)) := by
    rw [hp2]
    cases hsel' : sel with
    | nil => exact absurd hsel' hne
    | cons x xs =>
      unfold insertNames
      simp only [List.map_cons]
      rw [show GExpr.key x.1 x.2 :: xs.map (fun p => GExpr.key p.1 p.2) = (x :: xs).map fun p => GExpr.key p.1 p.2 from rfl, outNames_columns,
        if_pos (by rw [hl, hsel']; simp)]
      rfl
  rw [hnames] at hr
  simp only [Res.bind] at hr
  have hident : ∀ d ∈ selected rx src c, rowIdent (rowOf sel d) = textKey f d := by
    intro d hd
    obtain ⟨s, es, -⟩ := hhex d hd
    have := look_rowOf sel d hg.names (fun p hp => (hvals d hd p hp).imp fun v h => h.1) (idName, f) hsel (.str s) es
    unfold rowIdent textKey
    rw [show look (rowOf sel d) idName = .scalar (.str s) from this, es]
  have hwith : withIds p.group ((selected rx src c).map fun d => ⟨0, rowOf sel d⟩) = (selected rx src c).map fun d => ⟨textKey f d, rowOf sel d⟩ := by
    rw [hp2]
    cases hsel' : sel with
    | nil => exact absurd hsel' hne
    | cons x xs =>
      unfold withIds
      simp only [List.map_cons, List.map_map]
      apply List.map_congr_left
      intro d hd
      simp only [Function.comp]
      rw [← hsel', hident d hd]
  rw [hwith, List.map_map] at hr
  have hcar : ∀ d ∈ selected rx src c, (storedRow (cols.zip (sel.map Prod.fst)) ⟨textKey f d, rowOf sel d⟩).id = textKey f d ∧
      Carries cols sel d (storedRow (cols.zip (sel.map Prod.fst)) ⟨textKey f d, rowOf sel d⟩) :=
    fun d hd => stored_carries cols sel d (textKey f d) hn hg.names hl hidc (hvals d hd)
  generalize hb : (selected rx src c).map (storedRow (cols.zip (sel.map Prod.fst)) ∘ fun d => ⟨textKey f d, rowOf sel d⟩) = batch at hr
  have hids : batch.map Doc.id = (selected rx src c).map (textKey f) := by
    rw [← hb, List.map_map]
    apply List.map_congr_left
    intro d hd
    exact (hcar d hd).1
  have hfresh : ∀ e ∈ batch, byId store e.id = none := by
    intro e he
    rw [← hb] at he
    obtain ⟨d, hd, rfl⟩ := List.mem_map.mp he
    simp only [Function.comp]
    rw [(hcar d hd).1]
    exact hnew d hd
  have hothers := C17_others [] store batch hst hfresh
  have hstored := C17_stored_partial store batch hst hfresh (by unfold UniqueIds; rw [hids]; exact hu)
  refine ⟨(insertOp [] store batch).1, ?_, ?_, ?_⟩
  · rw [hr, ← hids, ← hothers.2.1]
  · intro d hd
    have hm : storedRow (cols.zip (sel.map Prod.fst)) ⟨textKey f d, rowOf sel d⟩ ∈ batch := by
      rw [← hb]
      exact List.mem_map.mpr ⟨d, hd, rfl⟩
    have := hstored _ hm
    rw [(hcar d hd).1] at this
    exact ⟨_, this, (hcar d hd).2⟩
  · intro i hi
    refine hothers.2.2 i ?_
    intro e he heq
    apply hi
    rw [← hids, ← heq]
    exact List.mem_map_of_mem he

/-- `INSERT INTO t (cols) SELECT * FROM s WHERE c ORDER BY ..`: if no `_id` of a selected document is in `t`, exactly the
selected documents are added to `t` as they are, whatever the columns; if one is, nothing changes. -/
theorem C86_star_partial (fpu : Fpu) (rx : Bytes → Bytes → Res Bool) (cols : List Bytes) (c : Option Cond) (src store : List Doc)
    (hsz : src.length < 2 ^ 31) (hsrc : Sorted src) (hst : Sorted store) (hc : Clear rx src c)
    (r : Res (List Doc × Option (List Nat))) (hr : runInsertSelect fpu rx cols ⟨[.star], c, [], [], none⟩ src store r) :
    ((∀ d ∈ selected rx src c, byId store d.id = none) → ∃ store', r = .ok (store', some ((selected rx src c).map Doc.id)) ∧
      (∀ d ∈ selected rx src c, byId store' d.id = some d) ∧
      ∀ i, i ∉ (selected rx src c).map Doc.id → byId store' i = byId store i) ∧
    ((∃ d ∈ selected rx src c, (byId store d.id).isSome) → r = .ok (store, none)) := by
  have hrows := rows_clear fpu rx src ⟨[.star], c, [], [], none⟩ [] rfl hsz hc
  simp only at hrows
  obtain ⟨p, hp1, hp2⟩ : ∃ p, trSelect ⟨[.star], c, [], [], none⟩ = .ok p ∧ p.group = [] := by
    cases ht : trSelect ⟨[.star], c, [], [], none⟩ with
    | ok p =>
      refine ⟨p, rfl, ?_⟩
      unfold trSelect at ht
      simp only [trTargets, Res.bind] at ht
      cases c with
      | none => cases ht; rfl
      | some c =>
        simp only at ht
        cases hw : trWhere c [] with
        | ok x => rw [hw] at ht; cases ht; rfl
        | throws => rw [hw] at ht; cases ht
        | ub => rw [hw] at ht; cases ht
        | diverges => rw [hw] at ht; cases ht
    | throws => rw [ht] at hrows; cases hrows
    | ub => rw [ht] at hrows; cases hrows
    | diverges => rw [ht] at hrows; cases hrows
  obtain ⟨q, hq, hr⟩ := hr
  unfold runSelect at hq
  rw [hrows] at hq
  simp only [if_true] at hq
  subst hq
  rw [hp1] at hr
  simp only [Res.bind, hp2, insertNames, withIds] at hr
  have hstored : (selected rx src c).map (storedRow (cols.zip cols)) = selected rx src c := by
    rw [show storedRow (cols.zip cols) = id from ?_, List.map_id]
    funext d
    unfold storedRow
    rw [simple_zip]
    rfl
  rw [hstored] at hr
  have hu : UniqueIds (selected rx src c) := by
    have hsub : (selected rx src c).Sublist src := by
      cases c with
      | none => exact List.Sublist.refl _
      | some c => exact List.filter_sublist
    unfold UniqueIds List.Nodup
    rw [List.pairwise_map]
    exact (List.Pairwise.sublist hsub hsrc).imp fun h => Nat.ne_of_lt h
  constructor
  · intro hnew
    have h1 := C17_others [] store _ hst hnew
    refine ⟨(insertOp [] store (selected rx src c)).1, ?_, C17_stored_partial store _ hst hnew hu, ?_⟩
    · rw [hr, ← h1.2.1]
    · intro i hi
      refine h1.2.2 i fun d hd e => hi ?_
      rw [← e]
      exact List.mem_map_of_mem hd
  · intro h
    rw [hr, C17_refused [] store _ h]

/-- A number of columns other than that of the columns selected: refused, whatever the rows. -/
theorem C86_count (fpu : Fpu) (rx : Bytes → Bytes → Res Bool) (cols : List Bytes) (sel : List (Bytes × Bytes)) (src store : List Doc)
    (order : List SortKey) (hne : sel ≠ []) (hl : cols.length ≠ sel.length) (r : Res (List Doc × Option (List Nat)))
    (hr : runInsertSelect fpu rx cols ⟨columns sel, none, [], order, none⟩ src store r) : r = .throws := by
  obtain ⟨q, -, hr⟩ := hr
  rw [hr]
  unfold trSelect
  simp only [trTargets_columns, Res.bind]
  cases hsel : sel with
  | nil => exact absurd hsel hne
  | cons x xs =>
    unfold insertNames
    simp only [List.map_cons]
    rw [show GExpr.key x.1 x.2 :: xs.map (fun p => GExpr.key p.1 p.2) = (x :: xs).map fun p => GExpr.key p.1 p.2 from rfl, outNames_columns,
      if_neg (by rw [hsel] at hl; simpa using hl)]

/-! ### the theorems apply -/

/-- A document of the other collection: `_id`, `a`, `b`. -/
def exSrc (c : UInt8) (a : Int) (b : Bytes) : Doc :=
  ⟨Oid.value (Oid.init (exId c)), [(idName, .scalar (.str (exId c))), (exA, .scalar (.int .i64 a)), (exB, .scalar (.str b))]⟩

def exFrom : List Doc := [exSrc 49 5 [120], exSrc 50 5 [120], exSrc 51 7 [121]]

/-- `_id, b AS x`. -/
def exSel : List (Bytes × Bytes) := [(idName, idName), ([120], exB)]

theorem exFrom_sorted : Sorted exFrom := by unfold Sorted; decide +kernel

theorem exFrom_groupable : Groupable exSel exFrom := by
  refine ⟨by decide, ?_, ?_⟩
  · intro p hp d hd v hv
    simp only [exSel, exFrom, List.mem_cons, List.not_mem_nil, or_false] at hp hd
    rcases hp with rfl | rfl <;> rcases hd with rfl | rfl | rfl <;> cases hv <;> show List.length _ < 2 ^ 32 <;> decide
  · intro p hp d hd e he t u m n h1 h2
    simp only [exSel, exFrom, List.mem_cons, List.not_mem_nil, or_false] at hp hd
    rcases hp with rfl | rfl <;> rcases hd with rfl | rfl | rfl <;> cases h1

/-- `C86_columns_partial` applies: `INSERT INTO t (_id, y) SELECT _id, b AS x FROM s`. -/
example (r) (hr : runInsertSelect exFpu exRx [idName, [121]] ⟨columns exSel, none, [], [], none⟩ exFrom [⟨0, []⟩] r) :
    ∃ store', r = .ok (store', some [1, 2, 3]) ∧ (∀ d ∈ exFrom, ∃ e, byId store' (textKey idName d) = some e ∧ Carries [idName, [121]] exSel d e) ∧
      ∀ i, i ∉ [1, 2, 3] → byId store' i = byId [⟨0, []⟩] i := by
  have e : exFrom.map (textKey idName) = [1, 2, 3] := by decide +kernel
  have h := C86_columns_partial exFpu exRx [idName, [121]] exSel none exFrom [⟨0, []⟩] idName (by decide) (List.pairwise_singleton _ _) trivial
    (by decide) rfl (by decide) exFrom_groupable (by decide) (by
      intro d hd
      simp only [selected, exFrom, List.mem_cons, List.not_mem_nil, or_false] at hd
      rcases hd with rfl | rfl | rfl <;> exact ⟨_, rfl, rfl, by decide⟩) (by show (exFrom.map (textKey idName)).Nodup; rw [e]; decide)
    (by decide +kernel) r hr
  rw [show (selected exRx exFrom none).map (textKey idName) = [1, 2, 3] from e] at h
  exact h

/-- There is such an outcome. -/
example : ∃ r, runInsertSelect exFpu exRx [idName, [121]] ⟨columns exSel, none, [], [], none⟩ exFrom [⟨0, []⟩] r :=
  ⟨_, _, run_of exFrom ⟨columns exSel, none, [], [], none⟩ rfl _ rfl, rfl⟩

/-- `C86_star_partial` applies. -/
example (r) (hr : runInsertSelect exFpu exRx [exA] ⟨[.star], none, [], [], none⟩ exFrom [⟨0, []⟩] r) :
    ∃ store', r = .ok (store', some (exFrom.map Doc.id)) ∧ (∀ d ∈ exFrom, byId store' d.id = some d) ∧
      ∀ i, i ∉ exFrom.map Doc.id → byId store' i = byId [⟨0, []⟩] i :=
  (C86_star_partial exFpu exRx [exA] none exFrom [⟨0, []⟩] (by decide) exFrom_sorted (List.pairwise_singleton _ _) trivial r hr).1 (by decide +kernel)

/-! ### where the full claim fails -/

/-- The outcome of an INSERT ... SELECT without ORDER BY. -/
theorem insert_of (cols : List Bytes) (s : Select) (ho : s.order = []) (src store : List Doc) (q : Res (List Doc))
    (hq : (trSelect s).bind (rowsOf exFpu exRx src) = q) (r : Res (List Doc × Option (List Nat)))
    (hr : ((trSelect s).bind fun p => (insertNames cols p.group).bind fun tr => q.bind fun rows =>
      .ok (insertOp [] store ((withIds p.group rows).map (storedRow tr)))) = r) :
    runInsertSelect exFpu exRx cols s src store r := ⟨q, run_of src s ho q hq, hr.symm⟩

/-- `INSERT INTO t (a) SELECT a FROM s`: of two rows one stays, both get the null `_id`; run again, nothing is inserted and
nothing reported. -/
theorem C86_noid_fails :
    runInsertSelect exFpu exRx [exA] ⟨columns [(exA, exA)], none, [], [], none⟩ exFrom [] (.ok ([⟨0, [(exA, .scalar (.int .i64 7))]⟩], some [0, 0])) ∧
    runInsertSelect exFpu exRx [exA] ⟨columns [(exA, exA)], none, [], [], none⟩ exFrom [⟨0, [(exA, .scalar (.int .i64 7))]⟩]
      (.ok ([⟨0, [(exA, .scalar (.int .i64 7))]⟩], none)) := by
  constructor <;> exact insert_of _ _ rfl _ _ _ rfl _ (by decide +kernel)

theorem C86_claim_fails : ¬ C86_claim := by
  intro h
  obtain ⟨s', ids, h1, h2, -⟩ := h exFpu exRx [exA] [(exA, exA)] exFrom [] (by decide) exFrom_sorted .nil (by decide) (by decide) rfl (by simp) _ C86_noid_fails.1
  cases h1
  exact absurd h2 (by decide)

/-- A document without one of the columns is not inserted. -/
theorem C86_missing_fails : runInsertSelect exFpu exRx [idName, exB] ⟨columns [(idName, idName), (exB, exB)], none, [], [], none⟩
    [exSrc 49 5 [120], ⟨2, [(idName, .scalar (.str (exId 50))), (exA, .scalar (.int .i64 1))]⟩] []
    (.ok ([⟨1, [(idName, .scalar (.str (exId 49))), (exB, .scalar (.str [120]))]⟩], some [1])) :=
  insert_of _ _ rfl _ _ _ rfl _ (by decide +kernel)

/-- `INSERT INTO t (_id, x) SELECT a, b`: the column `_id` does not give the `_id`: the row is stored under the null one. -/
theorem C86_name_fails : runInsertSelect exFpu exRx [idName, [120]] ⟨columns [(exA, exA), (exB, exB)], none, [], [], none⟩ [exSrc 49 5 [121]] []
    (.ok ([⟨0, [(idName, .scalar (.int .i64 5)), ([120], .scalar (.str [121]))]⟩], some [0])) :=
  insert_of _ _ rfl _ _ _ rfl _ (by decide +kernel)

/-- `INSERT INTO t (a) SELECT * FROM s` stores all fields. -/
theorem C86_star_fails : runInsertSelect exFpu exRx [exA] ⟨[.star], none, [], [], none⟩ [exSrc 49 5 [120]] [] (.ok ([exSrc 49 5 [120]], some [1])) ∧
    (exSrc 49 5 [120]).get exB = .scalar (.str [120]) :=
  ⟨insert_of _ _ rfl _ _ _ rfl _ (by decide +kernel), by decide +kernel⟩

/-- `INSERT INTO t (_id, n) SELECT _id, max(a)` is refused, as functions are not counted; `INSERT INTO t (_id) SELECT _id,
max(a)` is not, and stores both. -/
theorem C86_function_fails :
    runInsertSelect exFpu exRx [idName, [110]] ⟨columns [(idName, idName)] ++ calls [([109], .max, exA)], none, [], [], none⟩ [exSrc 49 5 [120]] [] .throws ∧
    runInsertSelect exFpu exRx [idName] ⟨columns [(idName, idName)] ++ calls [([109], .max, exA)], none, [], [], none⟩ [exSrc 49 5 [120]] []
      (.ok ([⟨1, [(idName, .scalar (.str (exId 49))), ([109], .scalar (.int .i64 5))]⟩], some [1])) := by
  constructor <;> exact insert_of _ _ rfl _ _ _ rfl _ (by decide +kernel)

end Verif.Sql
