import Verif.Table.Index
/-!
C74: an index on a table does not change what a statement returns or deletes.
-/
namespace Verif.Table
open Verif

variable {α : Type} {lt : Cell α → Cell α → Bool} {cmp : α → α → Ordering} {P : α → Prop}
  {tys : List (ColTy α)} {col : Nat} {T T' : ITable α} {s : Ideal α}

/-! ### the invariant -/

/-- The index has an entry for each row that is left, with the cell of the row, in order. -/
structure Tracks (lt : Cell α → Cell α → Bool) (tys : List (ColTy α)) (col : Nat) (es : List (IEntry α)) (T : ITable α) (s : Ideal α) : Prop where
  after : ∃ h, After tys h T.tbl s
  idx : T.idx = some (col, es)
  rows : (es.map IEntry.row).Perm s.live
  keys : ∀ e ∈ es, ∃ l, s.cols[col]? = some l ∧ l[e.row]? = some e.key
  order : IOrder lt es

/-- The cells of the column in the rows that are left are values of `P`. -/
def ColIn (P : α → Prop) (s : Ideal α) (col : Nat) : Prop := ∀ i ∈ s.live, ∃ a, (s.row i)[col]? = some (some a) ∧ P a

theorem row_at {l : List (Cell α)} {i : Nat} {k : Cell α} (h1 : s.cols[col]? = some l) (h2 : l[i]? = some k) : (s.row i)[col]? = some k := by
  unfold Ideal.row
  rw [List.getElem?_map, h1, Option.map_some, h2]
  rfl

theorem Tracks.live {es : List (IEntry α)} (h : Tracks lt tys col es T s) {e : IEntry α} (he : e ∈ es) : e.row ∈ s.live :=
  h.rows.mem_iff.mp (List.mem_map_of_mem he)

theorem Tracks.key {es : List (IEntry α)} (h : Tracks lt tys col es T s) {e : IEntry α} (he : e ∈ es) : (s.row e.row)[col]? = some e.key := by
  obtain ⟨l, h1, h2⟩ := h.keys e he
  exact row_at h1 h2

theorem Tracks.iKeys {es : List (IEntry α)} (h : Tracks lt tys col es T s) (hc : ColIn P s col) : IKeys P es := by
  intro e he
  obtain ⟨a, h1, h2⟩ := hc e.row (h.live he)
  rw [h.key he] at h1
  injection h1 with h1
  exact ⟨a, h1, h2⟩

/-- Fetching rows that are there returns them. -/
theorem fetch_rows (hty : ∀ ty ∈ tys, ty.Ok) {h : List (Call α)} {t : Table α} (ha : After tys h t s) (hr : s.rows < 2 ^ 62) (ids : List Nat)
    (hids : ∀ i ∈ ids, i < s.rows) : t.fetch (List.range t.tys.length) ids = .ok (ids.map s.row) := by
  have hi := (ha.inv hty hr).1
  rw [hi.same]
  obtain ⟨rows, h1, h2⟩ := C65_fetch hty ha hr (List.range tys.length) (by simp) ids
  rw [h1]
  congr 1
  have e1 : (ids.filter fun i => decide (i < s.rows)) = ids := by
    rw [List.filter_eq_self]
    intro i hi
    simpa using hids i hi
  have e2 : rows.map (fun r => r.map some) = (ids.map s.row).map fun r => r.map some := by
    rw [h2, e1, List.map_map]
    apply List.map_congr_left
    intro i hii
    show _ = (s.row i).map some
    apply List.ext_getElem?
    intro j
    unfold Ideal.row
    rw [List.map_map, List.getElem?_map, List.getElem?_map]
    by_cases hj : j < tys.length
    · rw [List.getElem?_range hj]
      have hj2 : j < s.cols.length := by rw [hi.ok.width]; exact hj
      rw [List.getElem?_eq_getElem hj2]
      simp only [Option.map_some, Option.bind_some, Function.comp]
      have hl := hi.ok.len _ (List.getElem_mem hj2)
      have hl2 : i < s.cols[j].length := by rw [hl]; exact hids i hii
      rw [List.getElem?_eq_getElem hj2, Option.bind_some, List.getElem?_eq_getElem hl2]
      rfl
    · rw [List.getElem?_eq_none (by simp; omega), List.getElem?_eq_none (by rw [hi.ok.width]; omega)]
      rfl
  have hinj : Function.Injective fun r : List (Cell α) => r.map some := List.map_injective_iff.mpr (Option.some_injective _)
  exact List.map_injective_iff.mpr hinj e2

/-- The comparison of a key. -/
theorem key_holds (ho : Orders lt cmp P) (op : FOp) {k : Cell α} (hk : IKey P k) {c : α} (hc : P c) {row : List (Cell α)}
    (hrow : row[col]? = some k) : op.key lt k (some c) = (Ex.cmp op col c).holds cmp row := by
  obtain ⟨a, rfl, ha⟩ := hk
  unfold Ex.holds FOp.key
  rw [hrow]
  simp only
  rw [ho.same a c ha hc, ho.same c a hc ha]
  congr 1
  cases h : cmp a c with
  | lt => rfl
  | gt => rw [(ho.swap a c ha hc).mp h]; rfl
  | eq =>
    have : cmp c a ≠ .lt := by
      intro h2
      rw [(ho.swap a c ha hc).mpr h2] at h
      cases h
    simp [this]

/-- The entries of an answer. -/
def hits (lt : Cell α → Cell α → Bool) (es : List (IEntry α)) (op : FOp) (c : α) (limit : Int) : List (IEntry α) :=
  let all := es.filter fun e => op.key lt e.key (some c)
  if limit = -1 then all else all.take limit.toNat

theorem hits_answer (ho : Orders lt cmp P) {es : List (IEntry α)} (h : Tracks lt tys col es T s) (hc : ColIn P s col) (op : FOp) {c : α} (hpc : P c)
    (limit : Int) : Answer cmp s op col c limit ((hits lt es op c limit).map IEntry.row) := by
  have hks := h.iKeys hc
  have hall : ((es.filter fun e => op.key lt e.key (some c)).map IEntry.row).Perm (s.matching cmp op col c) := by
    have e1 : (es.filter fun e => op.key lt e.key (some c)) = es.filter fun e => ((fun i => (Ex.cmp op col c).holds cmp (s.row i)) ∘ IEntry.row) e := by
      apply List.filter_congr
      intro e he
      exact key_holds ho op (hks e he) hpc (h.key he)
    rw [e1, ← List.filter_map]
    exact h.rows.filter _
  have hnd : (s.matching cmp op col c).Nodup := (live_nodup s).filter _
  unfold hits
  split
  · rename_i hl
    exact ⟨hall.nodup_iff.mpr hnd, fun i hi => hall.mem_iff.mp hi, by rw [if_pos hl, hall.length_eq]⟩
  · rename_i hl
    rw [List.map_take]
    refine ⟨(hall.nodup_iff.mpr hnd).sublist (List.take_sublist _ _), fun i hi => hall.mem_iff.mp (List.mem_of_mem_take hi), ?_⟩
    rw [if_neg hl, List.length_take, hall.length_eq]

theorem hits_none {es : List (IEntry α)} {op : FOp} {c : α} {limit : Int} (hl : -1 ≤ limit) (h0 : ¬ Query.limOk limit 0 = true) :
    hits lt es op c limit = [] := by
  have : limit = 0 := by
    simp only [Query.limOk, Bool.or_eq_true, beq_iff_eq, decide_eq_true_eq, not_or] at h0
    omega
  subst this
  simp [hits]

/-- A scan through an index that tracks the table. -/
theorem Tracks.find (hty : ∀ ty ∈ tys, ty.Ok) (ho : Orders lt cmp P) {es : List (IEntry α)} (h : Tracks lt tys col es T s) (hr : s.rows < 2 ^ 62)
    (hc : ColIn P s col) (op : FOp) (hop : op.indexable = true) (c : α) (hpc : P c) (limit : Int) (hl : -1 ≤ limit) :
    T.find lt cmp (some (.cmp op col c)) limit = .ok (if Query.limOk limit 0 then
      some ⟨(hits lt es op c limit).map IEntry.row, ((hits lt es op c limit).map IEntry.row).map s.row⟩ else none) := by
  obtain ⟨hh, ha⟩ := h.after
  unfold ITable.find
  rw [h.idx]
  simp only [hop, and_self, if_true]
  unfold Table.indexScan
  by_cases h0 : Query.limOk limit 0 = true
  · rw [if_pos h0, if_pos h0]
    simp only
    rw [iRanges_eq ho op hop (some c) ⟨c, rfl, hpc⟩ es (h.iKeys hc) h.order, iIds_eq limit hl]
    have e1 : (if limit = -1 then (es.filter fun e => op.key lt e.key (some c)).map IEntry.row
        else ((es.filter fun e => op.key lt e.key (some c)).map IEntry.row).take (limit.toNat - 0)) = (hits lt es op c limit).map IEntry.row := by
      unfold hits
      split
      · rfl
      · rw [List.map_take]; rfl
    rw [e1, fetch_rows hty ha hr _ ?_]
    · rfl
    · intro i hi
      have := (hits_answer ho h hc op hpc limit).sub i hi
      exact (mem_live.mp (List.mem_filter.mp this).1).1
  · rw [if_neg h0, if_neg h0]

theorem sat_eqv (ho : Orders lt cmp P) (op : FOp) {a b k : Cell α} (ha : IKey P a) (hb : IKey P b) (hk : IKey P k) (h1 : lt a b = false) (h2 : lt b a = false) :
    op.key lt a k = op.key lt b k := by
  have e1 : lt a k = lt b k := by
    cases h3 : lt a k <;> cases h4 : lt b k
    · rfl
    · rcases ho.co hb hk ha h4 with h5 | h5
      · rw [h2] at h5; cases h5
      · rw [h3] at h5; cases h5
    · rcases ho.co ha hk hb h3 with h5 | h5
      · rw [h1] at h5; cases h5
      · rw [h4] at h5; cases h5
    · rfl
  have e2 : lt k a = lt k b := by
    cases h3 : lt k a <;> cases h4 : lt k b
    · rfl
    · rcases ho.co hk hb ha h4 with h5 | h5
      · rw [h3] at h5; cases h5
      · rw [h1] at h5; cases h5
    · rcases ho.co hk ha hb h3 with h5 | h5
      · rw [h4] at h5; cases h5
      · rw [h2] at h5; cases h5
    · rfl
  unfold FOp.key
  rw [e1, e2]

/-- A delete through an index that tracks the table: the right rows, and the index tracks the table. -/
theorem Tracks.delete (hty : ∀ ty ∈ tys, ty.Ok) (ho : Orders lt cmp P) {es : List (IEntry α)} (h : Tracks lt tys col es T s) (hr : s.rows < 2 ^ 62)
    (hc : ColIn P s col) (op : FOp) (hop : op.indexable = true) (c : α) (hpc : P c) (limit : Int) (hl : -1 ≤ limit) :
    ∃ T' ids es', T.deleteOp lt cmp (some (.cmp op col c)) limit = .ok (T', ids) ∧ Answer cmp s op col c limit ids ∧
      Tracks lt tys col es' T' (s.delete ids) := by
  have hans := hits_answer ho h hc op hpc limit
  unfold ITable.deleteOp
  rw [h.find hty ho hr hc op hop c hpc limit hl, Res.bind_ok]
  by_cases h0 : Query.limOk limit 0 = true
  swap
  · rw [if_neg h0]
    rw [hits_none hl h0] at hans
    have : s.delete [] = s := by
      unfold Ideal.delete
      simp
    exact ⟨T, [], es, rfl, hans, by rw [this]; exact h⟩
  · rw [if_pos h0]
    simp only
    obtain ⟨hh, ha⟩ := h.after
    generalize hids : (hits lt es op c limit).map IEntry.row = ids at hans
    have hlive : ∀ i ∈ ids, i ∈ s.live := fun i hi => (List.mem_filter.mp (hans.sub i hi)).1
    obtain ⟨t', h1⟩ := C62_delete_returns hty ha hr ids hans.nodup hlive
    have h2 := C62_delete hty ha hr ids h1
    -- the entries that are erased
    have hn : hits lt es op c limit = (es.filter fun e => op.key lt e.key (some c)).take
        (if limit = -1 then (es.filter fun e => op.key lt e.key (some c)).length else limit.toNat) := by
      unfold hits
      simp only
      split
      · rw [List.take_length]
      · rfl
    obtain ⟨es', k1, k2, k3⟩ := eraseKeys ho (fun e => op.key lt e.key (some c)) col (fun e => s.row e.row)
      (if limit = -1 then (es.filter fun e => op.key lt e.key (some c)).length else limit.toNat) es (h.iKeys hc) h.order
      (fun a b ha hb hab hba => sat_eqv ho op (h.iKeys hc a ha) (h.iKeys hc b hb) ⟨c, rfl, hpc⟩ hab hba) (fun e he => h.key he)
    rw [← hn] at k1 k2
    have e3 : ids.map s.row = (hits lt es op c limit).map fun e => s.row e.row := by
      rw [← hids, List.map_map]; rfl
    rw [List.length_map, List.take_length, h1, Res.bind_ok, h.idx, e3]
    simp only [eraseIndex]
    rw [k1]
    refine ⟨_, _, es', rfl, hans, ⟨_, h2.1⟩, rfl, ?_, ?_, h.order.sublist k3⟩
    · have p1 := (k2.map IEntry.row).symm.trans h.rows
      rw [List.map_append, hids] at p1
      have hnd : (ids ++ es'.map IEntry.row).Nodup := p1.nodup_iff.mpr (live_nodup s)
      have p2 := p1.filter fun i => !decide (i ∈ ids)
      rw [List.filter_append] at p2
      have e4 : (ids.filter fun i => !decide (i ∈ ids)) = [] := by
        rw [List.filter_eq_nil_iff]
        intro i hi
        simp [hi]
      have e5 : ((es'.map IEntry.row).filter fun i => !decide (i ∈ ids)) = es'.map IEntry.row := by
        rw [List.filter_eq_self]
        intro i hi
        have := (List.nodup_append.mp hnd).2.2
        simp only [Bool.not_eq_true', decide_eq_false_iff_not]
        intro hi2
        exact this i hi2 i hi rfl
      have e6 : (s.delete ids).live = s.live.filter fun i => !decide (i ∈ ids) := by
        unfold Ideal.live Ideal.delete
        simp only [List.filter_filter]
        apply List.filter_congr
        intro i _
        rw [Bool.not_or, Bool.and_comm]
      rw [e4, List.nil_append, e5] at p2
      rw [e6]
      exact p2
    · intro e he
      exact h.keys e (k3.subset he)

/-- The entries of the first INSERT. -/
theorem insertRows_ok (ho : Orders lt cmp P) (c : List (Cell α)) (hc : ∀ k ∈ c, IKey P k) : ∀ (n row : Nat) (es : List (IEntry α)), row + n ≤ c.length →
    IKeys P es → IOrder lt es → (es.map IEntry.row).Perm (List.range row) → (∀ e ∈ es, c[e.row]? = some e.key) →
    ∃ es', insertRows lt c n row es = .ok es' ∧ IOrder lt es' ∧ (es'.map IEntry.row).Perm (List.range (row + n)) ∧ ∀ e ∈ es', c[e.row]? = some e.key := by
  intro n
  induction n with
  | zero => intro row es _ _ h1 h2 h3; exact ⟨es, rfl, h1, h2, h3⟩
  | succ n ih =>
    intro row es hn hks h1 h2 h3
    have hlt : row < c.length := by omega
    have hk : c[row]? = some c[row] := List.getElem?_eq_getElem hlt
    have hkey : IKey P c[row] := hc _ (List.getElem_mem hlt)
    obtain ⟨es', i1, i2, i3, i4⟩ := ih (row + 1) (iInsert lt ⟨c[row], row⟩ es) (by omega) (by
        intro e he
        rcases List.mem_cons.mp ((iInsert_perm _ es).mem_iff.mp he) with rfl | he
        · exact hkey
        · exact hks e he) (iInsert_order ho _ hkey es hks h1) (by
        refine ((iInsert_perm _ es).map IEntry.row).trans ?_
        rw [List.map_cons, List.range_succ]
        exact (h2.cons row).trans (List.perm_append_comm (l₁ := [row]))) (by
        intro e he
        rcases List.mem_cons.mp ((iInsert_perm _ es).mem_iff.mp he) with rfl | he
        · exact hk
        · exact h3 e he)
    refine ⟨es', ?_, i2, by rw [show row + (n + 1) = row + 1 + n by omega]; exact i3, i4⟩
    simp only [insertRows, keyAt, hk, Res.bind_ok, i1]

/-- The cells of a column of a chunk are values of `P`. -/
def ChunkIn (P : α → Prop) (ch : Chunk α) (col : Nat) : Prop := ∀ c, ch.cols[col]? = some c → ∀ k ∈ c, ∃ a, k = some a ∧ P a

theorem zipWith_nil_append : ∀ (l : List (List (Cell α))), List.zipWith (· ++ ·) (List.replicate l.length []) l = l := by
  intro l
  induction l with
  | nil => rfl
  | cons a l ih => simp only [List.length_cons, List.replicate_succ, List.zipWith_cons_cons, List.nil_append, ih]

theorem empty_append (ch : Chunk α) (hch : ch.For tys.length) : (Ideal.empty tys.length).append ch = ⟨ch.size, ch.cols, fun _ => false⟩ := by
  unfold Ideal.append Ideal.empty
  rw [← hch.width]
  simp only [zipWith_nil_append, Nat.zero_add]

theorem load_tracks (hty : ∀ ty ∈ tys, ty.Ok) (ho : Orders lt cmp P) (hcol : col < tys.length) (ch : Chunk α) (hch : ch.For tys.length)
    (hr : ch.size < 2 ^ 62) (hin : ChunkIn P ch col) :
    ∃ T es, ((ITable.mk (Table.create tys) none).createIndex col).insertOp lt ch = .ok (T, List.range ch.size) ∧
      Tracks lt tys col es T ((Ideal.empty tys.length).append ch) := by
  have hc : ch.cols[col]? = some (ch.cols[col]'(by rw [hch.width]; exact hcol)) := List.getElem?_eq_getElem _
  generalize ch.cols[col]'(by rw [hch.width]; exact hcol) = c at hc
  have hlen := hch.height c (List.mem_of_getElem? hc)
  obtain ⟨es, h1, h2, h3, h4⟩ := insertRows_ok ho c (hin c hc) ch.size 0 [] (by omega) (by intro e he; cases he) List.Pairwise.nil (.refl _)
    (by intro e he; cases he)
  obtain ⟨t, h5, h6⟩ := C61_append_returns hty (.new : After tys [] _ _) [ch] (by simpa using hch) (by
    show 0 + ch.size < 2 ^ 62
    omega)
  have hs := empty_append ch hch
  refine ⟨⟨t, some (col, es)⟩, es, ?_, ⟨_, h6⟩, rfl, ?_, ?_, h2⟩
  · unfold ITable.insertOp ITable.createIndex insertIndex
    simp only [hc]
    rw [show (Table.create tys).total = 0 from rfl, h1]
    simp only [Res.map'_ok, Res.bind_ok, h5, Nat.zero_add, List.map_id']
  · rw [hs]
    unfold Ideal.live
    simpa using h3
  · rw [hs]
    intro e he
    exact ⟨c, hc, h4 e he⟩

theorem delete_colIn (ids : List Nat) (h : ColIn P s col) : ColIn P (s.delete ids) col := by
  intro i hi
  rw [mem_live] at hi
  refine h i (mem_live.mpr ⟨hi.1, ?_⟩)
  have : (s.dead i || decide (i ∈ ids)) = false := hi.2
  simp only [Bool.or_eq_false_iff] at this
  exact this.1

/-! ## C74 -/

/-- The full C74 claim, for a column without NULLs of values that `lt` and `cmp` order alike: with an
index on the column, a query that compares the column with a constant returns the rows that satisfy
the comparison, whatever statements came before. -/
def C74_index_claim (α : Type) : Prop :=
  ∀ (lt : Cell α → Cell α → Bool) (cmp : α → α → Ordering) (tys : List (ColTy α)) (col : Nat) (T : ITable α) (s : Ideal α),
    (∀ ty ∈ tys, ty.Ok) → col < tys.length → Orders lt cmp (fun _ => True) → Stmts lt cmp tys col T s → s.rows < 2 ^ 62 → ColIn (fun _ => True) s col →
    ∀ (op : FOp) (c : α) (limit : Int), op.indexable = true → -1 ≤ limit →
      ∃ o rows, T.find lt cmp (some (.cmp op col c)) limit = .ok o ∧ FoundIs s rows o ∧ Answer cmp s op col c limit rows

theorem Loaded.tracks (hty : ∀ ty ∈ tys, ty.Ok) (ho : Orders lt cmp (fun _ => True)) (hcol : col < tys.length) (h : Loaded lt cmp tys col T s) :
    s.rows < 2 ^ 62 → (∀ i < s.rows, ∃ a, (s.row i)[col]? = some (some a)) → ∃ es, Tracks lt tys col es T s := by
  induction h with
  | @load ch T ids hch hrun =>
    intro hr hnn
    have hs := empty_append ch hch
    rw [hs] at hr hnn
    obtain ⟨T', es, h1, h2⟩ := load_tracks (P := fun _ => True) hty ho hcol ch hch hr (by
      intro c hc k hk
      obtain ⟨i, hi, rfl⟩ := List.mem_iff_getElem.mp hk
      have hlen := hch.height c (List.mem_of_getElem? hc)
      obtain ⟨a, ha⟩ := hnn i (by show i < ch.size; omega)
      rw [row_at (s := ⟨ch.size, ch.cols, fun _ => false⟩) hc (List.getElem?_eq_getElem hi)] at ha
      injection ha with ha
      exact ⟨a, ha, trivial⟩)
    rw [hrun] at h1
    cases h1
    exact ⟨es, h2⟩
  | @delete T s op c limit T' ids hl hop hlim hrun ih =>
    intro hr hnn
    obtain ⟨es, h1⟩ := ih hr hnn
    have hc : ColIn (fun _ => True) s col := by
      intro i hi
      obtain ⟨a, ha⟩ := hnn i (mem_live.mp hi).1
      exact ⟨a, ha, trivial⟩
    obtain ⟨T2, ids2, es2, h2, _, h3⟩ := h1.delete hty ho hr hc op hop c trivial limit hlim
    rw [hrun] at h2
    cases h2
    exact ⟨es2, h3⟩

/-- **C74, partial**: the claim holds for tables whose index was created before the first row, whose
rows came with one INSERT, and of which rows were deleted only by comparisons of the indexed column
(with or without LIMIT). Missing: the other histories, for which it is false, see below; a column
with NULLs. -/
theorem C74_index_partial (hty : ∀ ty ∈ tys, ty.Ok) (hcol : col < tys.length) (ho : Orders lt cmp (fun _ => True)) (hst : Loaded lt cmp tys col T s)
    (hr : s.rows < 2 ^ 62) (hnn : ∀ i < s.rows, ∃ a, (s.row i)[col]? = some (some a)) (op : FOp) (c : α) (limit : Int) (hop : op.indexable = true)
    (hl : -1 ≤ limit) :
    ∃ o rows, T.find lt cmp (some (.cmp op col c)) limit = .ok o ∧ FoundIs s rows o ∧ Answer cmp s op col c limit rows := by
  obtain ⟨es, h1⟩ := hst.tracks hty ho hcol hr hnn
  have hc : ColIn (fun _ => True) s col := by
    intro i hi
    obtain ⟨a, ha⟩ := hnn i (mem_live.mp hi).1
    exact ⟨a, ha, trivial⟩
  refine ⟨_, _, h1.find hty ho hr hc op hop c trivial limit hl, ?_, hits_answer ho h1 hc op trivial limit⟩
  by_cases h0 : Query.limOk limit 0 = true
  · rw [if_pos h0]; exact ⟨rfl, rfl⟩
  · rw [if_neg h0, hits_none hl h0]; rfl

/-- **C74**, the INSERT of such a history: into an empty table every INSERT returns, and reports the
ids 0, 1, 2, … -/
theorem C74_load_returns (hty : ∀ ty ∈ tys, ty.Ok) (hcol : col < tys.length) (ho : Orders lt cmp (fun _ => True)) (ch : Chunk α)
    (hch : ch.For tys.length) (hr : ch.size < 2 ^ 62) (hnn : ∀ c, ch.cols[col]? = some c → ∀ k ∈ c, ∃ a, k = some a) :
    ∃ T, ((ITable.mk (Table.create tys) none).createIndex col).insertOp lt ch = .ok (T, List.range ch.size) := by
  obtain ⟨T, es, h, _⟩ := load_tracks hty ho hcol ch hch hr (by
    intro c hc k hk
    obtain ⟨a, ha⟩ := hnn c hc k hk
    exact ⟨a, ha, trivial⟩)
  exact ⟨T, h⟩

/-- **C74**, the DELETEs of such a history: each returns, and deletes and reports rows that satisfy the
comparison, all of them or as many as the limit allows. -/
theorem C74_delete_partial (hty : ∀ ty ∈ tys, ty.Ok) (hcol : col < tys.length) (ho : Orders lt cmp (fun _ => True)) (hst : Loaded lt cmp tys col T s)
    (hr : s.rows < 2 ^ 62) (hnn : ∀ i < s.rows, ∃ a, (s.row i)[col]? = some (some a)) (op : FOp) (c : α) (limit : Int) (hop : op.indexable = true)
    (hl : -1 ≤ limit) :
    ∃ T' ids, T.deleteOp lt cmp (some (.cmp op col c)) limit = .ok (T', ids) ∧ Answer cmp s op col c limit ids ∧
      Loaded lt cmp tys col T' (s.delete ids) ∧ ∃ h, After tys h T'.tbl (s.delete ids) := by
  obtain ⟨es, h1⟩ := hst.tracks hty ho hcol hr hnn
  have hc : ColIn (fun _ => True) s col := by
    intro i hi
    obtain ⟨a, ha⟩ := hnn i (mem_live.mp hi).1
    exact ⟨a, ha, trivial⟩
  obtain ⟨T', ids, es', h2, h3, h4⟩ := h1.delete hty ho hr hc op hop c trivial limit hl
  exact ⟨T', ids, h2, h3, .delete hst hop hl h2, h4.after⟩

theorem insertRows_ub (c : List (Cell α)) : ∀ (n row : Nat) (es : List (IEntry α)), 0 < n → c.length < row + n → insertRows lt c n row es = .ub := by
  intro n
  induction n with
  | zero => intro row es h; omega
  | succ n ih =>
    intro row es _ hlt
    simp only [insertRows, keyAt]
    cases hk : c[row]? with
    | none => rfl
    | some k =>
      rw [Res.bind_ok]
      have : row < c.length := by
        by_contra hge
        rw [List.getElem?_eq_none (by omega)] at hk
        cases hk
      exact ih (row + 1) _ (by omega) (by omega)

/-- **C74 fails** for every second INSERT: with an index on one of its columns, an INSERT of at least
one row into a table that has or had rows reads keys behind the rows of the chunk. -/
theorem C74_second_insert_is_ub (hty : ∀ ty ∈ tys, ty.Ok) {h : List (Call α)} {t : Table α} (ha : After tys h t s) (hr : s.rows < 2 ^ 62)
    (hrows : 0 < s.rows) (hcol : col < tys.length) (es : List (IEntry α)) (ch : Chunk α) (hch : ch.For tys.length) (hsz : 0 < ch.size) :
    (ITable.mk t (some (col, es))).insertOp lt ch = .ub := by
  have ht := (ha.inv hty hr).1.total
  have hc : ch.cols[col]? = some (ch.cols[col]'(by rw [hch.width]; exact hcol)) := List.getElem?_eq_getElem _
  generalize ch.cols[col]'(by rw [hch.width]; exact hcol) = c at hc
  have hlen := hch.height c (List.mem_of_getElem? hc)
  unfold ITable.insertOp insertIndex
  simp only [hc]
  rw [insertRows_ub c ch.size _ es hsz (by rw [ht]; omega)]
  rfl

/-- **C74 fails** for every index created on a table with rows: a query through it returns no row. -/
theorem C74_new_index_finds_nothing (hty : ∀ ty ∈ tys, ty.Ok) {h : List (Call α)} {t : Table α} (ha : After tys h t s) (hr : s.rows < 2 ^ 62)
    (op : FOp) (hop : op.indexable = true) (c : α) :
    ((ITable.mk t none).createIndex col).find lt cmp (some (.cmp op col c)) (-1) = .ok (some ⟨[], []⟩) := by
  unfold ITable.find ITable.createIndex
  simp only [hop, and_self, if_true]
  unfold Table.indexScan
  rw [if_pos (by rfl)]
  have : iRanges lt op (some c) [] = [] := by cases op <;> rfl
  rw [this]
  have := fetch_rows hty ha hr [] (by simp)
  rw [show iIds (-1) ([] : List (IEntry α)) 0 = [] from rfl]
  simp only
  rw [this]
  rfl

/-! ### Examples -/

/-- `std::less` of integers; NULL is below every value. -/
def exLt : Cell Int → Cell Int → Bool
  | some a, some b => decide (a < b)
  | none, some _ => true
  | _, none => false

theorem exOrders : Orders exLt compare (fun _ => True) := by
  refine ⟨?_, ?_, ?_⟩
  · intro a b _ _
    show decide (a < b) = decide (compare a b = .lt)
    simp only [compare_lt_iff_lt]
  · intro a b _ _
    rw [compare_gt_iff_gt, compare_lt_iff_lt]
  · intro a b c _ _ _ h
    rw [compare_lt_iff_lt] at h ⊢
    rw [compare_lt_iff_lt]
    omega

/-- Rows (1, 10), (1, 20), (0, 30). -/
def exRows : Chunk Int := ⟨3, [[some 1, some 1, some 0], [some 10, some 20, some 30]]⟩

theorem exRows_for : exRows.For [exTy, exTy].length := ⟨rfl, by decide⟩

theorem exTys_ok : ∀ ty ∈ [exTy, exTy], ty.Ok := by
  intro ty hty
  apply exTy_ok
  simpa using hty

/-- The table with these rows and an index on the first column. -/
theorem exLoaded : ∃ T, ((ITable.mk (Table.create [exTy, exTy]) none).createIndex 0).insertOp exLt exRows = .ok (T, [0, 1, 2]) ∧
    Loaded exLt compare [exTy, exTy] 0 T ⟨3, [[some 1, some 1, some 0], [some 10, some 20, some 30]], fun _ => false⟩ := by
  obtain ⟨T, h⟩ := C74_load_returns (lt := exLt) (cmp := compare) (col := 0) exTys_ok (by decide) exOrders exRows exRows_for (by decide) (by
    intro c hc k hk
    cases hc
    simp only [List.mem_cons, List.not_mem_nil, or_false] at hk
    rcases hk with rfl | rfl | rfl <;> exact ⟨_, rfl⟩)
  exact ⟨T, h, .load exRows_for h⟩

theorem exLoaded_run : ∃ T es, ((ITable.mk (Table.create [exTy, exTy]) none).createIndex 0).insertOp exLt exRows = .ok (⟨T, some (0, es)⟩, [0, 1, 2]) := by
  exact ⟨_, _, rfl⟩

/-- The hypotheses are met, and the answers are not empty: `x >= 1` returns rows 0 and 1; after
`DELETE … WHERE x = 1 LIMIT 1` it returns row 1. -/
example : ∃ T T', ((ITable.mk (Table.create [exTy, exTy]) none).createIndex 0).insertOp exLt exRows = .ok (T, [0, 1, 2]) ∧
    T.find exLt compare (some (.cmp .gte 0 1)) (-1) = .ok (some ⟨[0, 1], [[some 1, some 10], [some 1, some 20]]⟩) ∧
    T.deleteOp exLt compare (some (.cmp .eq 0 1)) 1 = .ok (T', [0]) ∧
    T'.find exLt compare (some (.cmp .gte 0 1)) (-1) = .ok (some ⟨[1], [[some 1, some 20]]⟩) ∧
    ∃ s, Loaded exLt compare [exTy, exTy] 0 T' s := by
  obtain ⟨T, h1, h2⟩ := exLoaded
  obtain ⟨T', ids, h3, h4, h5, _⟩ := C74_delete_partial (lt := exLt) (cmp := compare) (col := 0) exTys_ok (by decide) exOrders h2 (by decide) (by
    intro i hi
    have : i = 0 ∨ i = 1 ∨ i = 2 := by simp at hi; omega
    rcases this with rfl | rfl | rfl <;> exact ⟨_, rfl⟩) .eq 1 1 rfl (by decide)
  have r1 : (((ITable.mk (Table.create [exTy, exTy]) none).createIndex 0).insertOp exLt exRows).bind (fun T => T.1.find exLt compare (some (.cmp .gte 0 1)) (-1))
      = .ok (some ⟨[0, 1], [[some 1, some 10], [some 1, some 20]]⟩) := by rfl
  have r2 : (((ITable.mk (Table.create [exTy, exTy]) none).createIndex 0).insertOp exLt exRows).bind (fun T =>
      (T.1.deleteOp exLt compare (some (.cmp .eq 0 1)) 1).map' Prod.snd) = .ok [0] := by rfl
  have r3 : (((ITable.mk (Table.create [exTy, exTy]) none).createIndex 0).insertOp exLt exRows).bind (fun T =>
      (T.1.deleteOp exLt compare (some (.cmp .eq 0 1)) 1).bind fun T' => T'.1.find exLt compare (some (.cmp .gte 0 1)) (-1)) =
      .ok (some ⟨[1], [[some 1, some 20]]⟩) := by rfl
  rw [h1, Res.bind_ok] at r1 r2 r3
  simp only at r1 r2 r3
  rw [h3] at r2 r3
  cases r2
  exact ⟨T, T', h1, r1, h3, r3, _, h5⟩

/-- **C74 fails** for an index created on a table with rows: `x = 1` has two rows, the index none. -/
theorem C74_late_index_fails : ¬ C74_index_claim Int := by
  intro hc
  obtain ⟨t, h1, h2⟩ := C61_append_returns exTys_ok .new [exRows] (by simpa using exRows_for) (by decide)
  obtain ⟨o, rows, h3, h4, h5⟩ := hc exLt compare [exTy, exTy] 0 _ _ exTys_ok (by decide) exOrders (.create h2) (by decide) (by
    intro i hi
    have : i = 0 ∨ i = 1 ∨ i = 2 := by have := (mem_live.mp hi).1; change i < 3 at this; omega
    rcases this with rfl | rfl | rfl <;> exact ⟨_, rfl, trivial⟩) .eq 1 (-1) rfl (by decide)
  rw [C74_new_index_finds_nothing exTys_ok h2 (by decide) .eq rfl 1] at h3
  cases h3
  have h6 := h4.1
  have h7 := h5.all
  rw [← h6] at h7
  revert h7
  decide

/-- **C74 fails** after a DELETE by another column: the rows (1, 10) and (1, 20) share a key;
`DELETE … WHERE y = 20` removes row 1 from the table and the entry of row 0 from the index. `x = 1`
then returns the deleted row 1, and row 0 no more. -/
theorem C74_shared_key_fails : ¬ C74_index_claim Int := by
  intro hc
  have r1 : (((ITable.mk (Table.create [exTy, exTy]) none).createIndex 0).insertOp exLt exRows).bind (fun T =>
      (T.1.deleteOp exLt compare (some (.cmp .eq 1 20)) (-1)).map' Prod.snd) = .ok [1] := by rfl
  have r2 : (((ITable.mk (Table.create [exTy, exTy]) none).createIndex 0).insertOp exLt exRows).bind (fun T =>
      (T.1.deleteOp exLt compare (some (.cmp .eq 1 20)) (-1)).bind fun T' => T'.1.find exLt compare (some (.cmp .eq 0 1)) (-1)) =
      .ok (some ⟨[1], [[some 1, some 20]]⟩) := by rfl
  obtain ⟨T, h1, _⟩ := exLoaded
  rw [h1, Res.bind_ok] at r1 r2
  simp only at r1 r2
  obtain ⟨⟨T', ids⟩, h2, h3⟩ := Res.map'_ok_iff.mp r1
  simp only at h3
  subst h3
  rw [h2, Res.bind_ok] at r2
  simp only at r2
  have hst : Stmts exLt compare [exTy, exTy] 0 T' (((Ideal.empty 2).append exRows).delete [1]) :=
    .delete (.insert (.create .new) exRows_for h1) h2 (by decide)
  obtain ⟨o, rows, h4, h5, h6⟩ := hc exLt compare [exTy, exTy] 0 T' _ exTys_ok (by decide) exOrders hst (by decide) (by
    intro i hi
    have : i = 0 ∨ i = 1 ∨ i = 2 := by have := (mem_live.mp hi).1; change i < 3 at this; omega
    rcases this with rfl | rfl | rfl <;> exact ⟨_, rfl, trivial⟩) .eq 1 (-1) rfl (by decide)
  rw [r2] at h4
  cases h4
  have h7 := h6.sub 1 (by rw [← h5.1]; simp)
  revert h7
  decide

/-- The hypotheses of the theorem about the second INSERT are met. -/
example : ∃ t, ((Table.create [exTy, exTy]).append [exRows] = .ok t) ∧
    (ITable.mk t (some (0, []))).insertOp exLt exRows = .ub := by
  obtain ⟨t, h1, h2⟩ := C61_append_returns exTys_ok .new [exRows] (by simpa using exRows_for) (by decide)
  exact ⟨t, h1, C74_second_insert_is_ub exTys_ok h2 (by decide) (by decide) (by decide) [] exRows exRows_for (by decide)⟩

end Verif.Table
