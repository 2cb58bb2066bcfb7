import Verif.Table.Spec
import Verif.SegLookup.Props
import Mathlib.Data.List.Induction
import Mathlib.Data.List.Sort
/-! Facts about one column: its segments, its updates. -/
namespace Verif
namespace Res
theorem bind_ok_iff {α β : Type} {r : Res α} {f : α → Res β} {b : β} : r.bind f = ok b ↔ ∃ a, r = ok a ∧ f a = ok b := by
  cases r <;> simp [Res.bind]
theorem map'_ok_iff {α β : Type} {r : Res α} {f : α → β} {b : β} : r.map' f = ok b ↔ ∃ a, r = ok a ∧ f a = b := by
  cases r <;> simp [Res.map', Res.bind]
@[simp] theorem bind_ok {α β : Type} (a : α) (f : α → Res β) : (ok a).bind f = f a := rfl
@[simp] theorem map'_ok {α β : Type} (a : α) (f : α → β) : (ok a).map' f = ok (f a) := rfl
end Res
namespace Table
open Verif.Mvcc (CAP)
variable {α : Type}

/-- Consecutive segments from row `a` on. -/
def Chain : Nat → List (Seg α) → Prop
  | _, [] => True
  | a, s :: rest => s.start = a ∧ Chain (a + s.cells.length) rest

/-- All elements of the segments. -/
def flat (segs : List (Seg α)) : List α := segs.flatMap Seg.cells

@[simp] theorem flat_nil : flat ([] : List (Seg α)) = [] := rfl
@[simp] theorem flat_cons (s : Seg α) (r : List (Seg α)) : flat (s :: r) = s.cells ++ flat r := by simp [flat]
@[simp] theorem flat_append (a b : List (Seg α)) : flat (a ++ b) = flat a ++ flat b := by simp [flat]

theorem chain_append {a : Nat} {l r : List (Seg α)} : Chain a (l ++ r) ↔ Chain a l ∧ Chain (a + (flat l).length) r := by
  induction l generalizing a with
  | nil => simp [Chain]
  | cons s l ih => simp [Chain, ih, Nat.add_assoc, and_assoc]

theorem appendLoop_ok {ty : Ty α} (hty : ty.Ok) {a : Nat} (fuel : Nat) (pre : List (Seg α)) (cur : Seg α) (batch : List α)
    (hf : batch.length + (if cur.cells = [] then 0 else 1) < fuel) (hc : Chain a (pre ++ [cur]))
    (hne : ∀ s ∈ pre, s.cells ≠ []) :
    ∃ segs, appendLoop ty fuel pre cur batch = .ok segs ∧ Chain a segs ∧ flat segs = flat pre ++ cur.cells ++ batch ∧
      segs ≠ [] ∧ ∀ s ∈ segs.dropLast, s.cells ≠ [] := by
  induction fuel generalizing pre cur batch with
  | zero => omega
  | succ f ih =>
    unfold appendLoop
    simp only
    have hle := hty.le cur.cells batch
    have hc' : Chain a (pre ++ [⟨cur.start, cur.cells ++ batch.take (ty.room cur.cells batch)⟩]) := by
      rw [chain_append] at hc ⊢
      exact ⟨hc.1, hc.2.1, trivial⟩
    by_cases hn : ty.room cur.cells batch = batch.length
    · rw [if_pos hn]
      refine ⟨_, rfl, hc', ?_, by simp, by simpa using hne⟩
      rw [hn]; simp
    · rw [if_neg hn]
      have hb : batch ≠ [] := by rintro rfl; simp at hle hn; omega
      have hcur : cur.cells ++ batch.take (ty.room cur.cells batch) ≠ [] := by
        intro h
        rw [List.append_eq_nil_iff] at h
        have := hty.pos batch hb
        rw [← h.1] at this
        have h2 := h.2
        rw [List.take_eq_nil_iff] at h2
        rcases h2 with h2 | h2
        · omega
        · exact hb h2
      obtain ⟨segs, h1, h2, h3, h4, h5⟩ := ih (pre ++ [⟨cur.start, cur.cells ++ batch.take (ty.room cur.cells batch)⟩])
        ⟨cur.start + (cur.cells ++ batch.take (ty.room cur.cells batch)).length, []⟩ (batch.drop (ty.room cur.cells batch))
        (by
          simp only [if_true, List.length_drop]
          by_cases h0 : cur.cells = []
          · have := hty.pos batch hb
            rw [← h0] at this
            rw [if_pos h0] at hf
            omega
          · rw [if_neg h0] at hf
            omega)
        (by
          rw [chain_append]
          refine ⟨hc', ?_, trivial⟩
          rw [chain_append] at hc'
          have := hc'.2.1
          simp only at this
          simp only [this, flat_append, flat_cons, flat_nil]
          simp; omega)
        (by
          intro s hs
          rw [List.mem_append] at hs
          rcases hs with hs | hs
          · exact hne s hs
          · rw [List.mem_singleton] at hs; subst hs; exact hcur)
      refine ⟨segs, h1, h2, ?_, h4, h5⟩
      rw [h3]
      simp

theorem length_le_flat {segs : List (Seg α)} (h : ∀ s ∈ segs.dropLast, s.cells ≠ []) :
    segs.length ≤ (flat segs).length + 1 := by
  induction segs with
  | nil => simp
  | cons s r ih =>
    cases r with
    | nil => simp
    | cons s' r =>
      have h1 := h s (by simp)
      have h2 := ih (fun x hx => h x (by simp [hx]))
      have : 0 < s.cells.length := List.length_pos_iff.mpr h1
      simp at h2 ⊢
      omega

theorem chain_bounds {a : Nat} {segs : List (Seg α)} (h : Chain a segs) :
    ∀ s ∈ segs, a ≤ s.start ∧ s.start + s.cells.length ≤ a + (flat segs).length := by
  induction segs generalizing a with
  | nil => simp
  | cons s r ih =>
    obtain ⟨h1, h2⟩ := h
    intro x hx
    rw [List.mem_cons] at hx
    rcases hx with rfl | hx
    · simp; omega
    · have := ih h2 x hx
      simp
      omega

theorem chain_sorted {a : Nat} {segs : List (Seg α)} (h : Chain a segs) :
    (segs.map fun s => (⟨s.start, s.cells.length⟩ : SegLookup.Seg)).Pairwise fun x y => x.start + x.count ≤ y.start := by
  induction segs generalizing a with
  | nil => simp
  | cons s r ih =>
    obtain ⟨h1, h2⟩ := h
    rw [List.map_cons, List.pairwise_cons]
    refine ⟨?_, ih h2⟩
    intro y hy
    rw [List.mem_map] at hy
    obtain ⟨x, hx, rfl⟩ := hy
    have := chain_bounds h2 x hx
    simp only
    omega

/-- The element at row `a + i` is in a segment containing that row. -/
theorem chain_find {a : Nat} {segs : List (Seg α)} (h : Chain a segs) {i : Nat} (hi : i < (flat segs).length) :
    ∃ s ∈ segs, s.start ≤ a + i ∧ a + i < s.start + s.cells.length := by
  induction segs generalizing a i with
  | nil => simp at hi
  | cons s r ih =>
    obtain ⟨h1, h2⟩ := h
    by_cases hs : i < s.cells.length
    · exact ⟨s, by simp, by omega, by omega⟩
    · simp at hi
      obtain ⟨x, hx, h3, h4⟩ := ih h2 (i := i - s.cells.length) (by omega)
      exact ⟨x, by simp [hx], by omega, by omega⟩

theorem chain_get {a : Nat} {segs : List (Seg α)} (h : Chain a segs) {s : Seg α} (hs : s ∈ segs) {row : Nat}
    (h1 : s.start ≤ row) (h2 : row < s.start + s.cells.length) :
    s.cells[row - s.start]? = (flat segs)[row - a]? := by
  induction segs generalizing a with
  | nil => simp at hs
  | cons x r ih =>
    obtain ⟨h3, h4⟩ := h
    rw [List.mem_cons] at hs
    rcases hs with rfl | hs
    · rw [flat_cons, List.getElem?_append_left (by omega), h3]
    · have := (chain_bounds h4 s hs).1
      rw [flat_cons, List.getElem?_append_right (by omega), ih h4 hs]
      congr 1
      omega

/-- The updates of the only vector of a column. -/
def Col.ups (c : Col α) : List (Nat × α) := (updNode c.upd 0).getD []

/-- Updates sorted by position, all below `n`. -/
structure UpdOk (ups : List (Nat × α)) (n : Nat) : Prop where
  sorted : ups.Pairwise fun p q => p.1 < q.1
  lt : ∀ p ∈ ups, p.1 < n

/-- A column from row `a` on with the elements `vals`. -/
structure ColOk (c : Col α) (a : Nat) (vals : List α) : Prop where
  start : c.start = a
  count : c.count = vals.length
  ty : c.ty.Ok
  chain : Chain a c.segs
  nonempty : ∀ s ∈ c.segs.dropLast, s.cells ≠ []
  len : (flat c.segs).length = vals.length
  small : a + vals.length < 2 ^ 62
  upd : UpdOk c.ups vals.length
  other : ∀ v, 0 < v → updNode c.upd v = none
  set : updNode c.upd 0 ≠ some []
  vals : vals = overlay (flat c.segs) c.ups

theorem overlay_length (ups : List (Nat × α)) (l : List α) : (overlay l ups).length = l.length := by
  unfold overlay
  induction ups generalizing l with
  | nil => rfl
  | cons p ps ih => simp [ih]

theorem overlay_append (l new : List α) (ups : List (Nat × α)) (h : ∀ p ∈ ups, p.1 < l.length) :
    overlay (l ++ new) ups = overlay l ups ++ new := by
  unfold overlay
  induction ups generalizing l with
  | nil => rfl
  | cons p ps ih =>
    rw [List.foldl_cons, List.foldl_cons, List.set_append_left _ _ (h p (by simp)), ih]
    intro q hq
    simpa using h q (by simp [hq])

theorem overlay_take (l : List α) (ups : List (Nat × α)) (n : Nat) :
    (overlay l ups).take n = overlay (l.take n) ups := by
  unfold overlay
  induction ups generalizing l with
  | nil => rfl
  | cons p ps ih => rw [List.foldl_cons, List.foldl_cons, ih, List.take_set]

theorem ColOk.empty {ty : Ty α} (hty : ty.Ok) {a : Nat} (ha : a < 2 ^ 62) : ColOk (Col.empty ty a) a [] :=
  ⟨rfl, rfl, hty, trivial, by simp [Col.empty], rfl, by simpa using ha, ⟨by simp [Col.empty, Col.ups, updNode], by simp [Col.empty, Col.ups, updNode]⟩,
    by simp [Col.empty, updNode], by simp [Col.empty, updNode], rfl⟩

theorem ColOk.initAppend {c : Col α} {a : Nat} {vals : List α} (h : ColOk c a vals) :
    ColOk c.initAppend a vals ∧ c.initAppend.segs ≠ [] := by
  unfold Col.initAppend
  cases hs : c.segs with
  | nil =>
    rw [List.isEmpty_nil, if_pos rfl]
    refine ⟨⟨h.start, h.count, h.ty, ⟨h.start, trivial⟩, by simp, ?_, h.small, h.upd, h.other, h.set, ?_⟩, by simp⟩
    · have := h.len; rw [hs] at this; simpa using this
    · have := h.vals; rw [hs] at this; exact this
  | cons s r => simp only [List.isEmpty_cons]; exact ⟨h, by simp [hs]⟩

theorem ColOk.append {c : Col α} {a : Nat} {vals : List α} (h : ColOk c a vals) (hs : c.segs ≠ []) (batch : List α)
    (hb : a + vals.length + batch.length < 2 ^ 62) :
    ∃ c', c.append batch = .ok c' ∧ ColOk c' a (vals ++ batch) ∧ c'.segs ≠ [] ∧ c'.ty = c.ty := by
  obtain ⟨pre, cur, hpc⟩ := List.eq_nil_or_concat c.segs |>.resolve_left hs
  rw [List.concat_eq_append] at hpc
  have hpre : ∀ s ∈ pre, s.cells ≠ [] := by have := h.nonempty; rw [hpc] at this; simpa using this
  obtain ⟨segs, h1, h2, h3, h4, h5⟩ := appendLoop_ok h.ty (batch.length + 2) pre cur batch
    (by split <;> omega) (by rw [← hpc]; exact h.chain) hpre
  have hfl : flat segs = flat c.segs ++ batch := by rw [h3, hpc]; simp
  refine ⟨{ c with count := c.count + batch.length, segs := segs }, ?_, ?_, h4, rfl⟩
  · unfold Col.append
    rw [hpc]
    simp only [List.getLast?_concat, List.dropLast_concat, h1]
  · refine ⟨h.start, ?_, h.ty, h2, h5, ?_, ?_, ⟨h.upd.sorted, ?_⟩, h.other, h.set, ?_⟩
    · simp [h.count]
    · simp only [hfl, List.length_append, h.len]
    · simp; omega
    · intro p hp
      have := h.upd.lt p hp
      simp; omega
    · simp only [hfl]
      show _ = overlay _ c.ups
      rw [overlay_append _ _ _ (by rw [h.len]; exact h.upd.lt), ← h.vals]

theorem ColOk.ordered {c : Col α} {a : Nat} {vals : List α} (h : ColOk c a vals) : SegLookup.Ordered c.nodes := by
  have hs := h.small
  refine ⟨chain_sorted h.chain, ?_, ?_⟩
  · intro s hs'
    unfold Col.nodes at hs'
    rw [List.mem_map] at hs'
    obtain ⟨x, hx, rfl⟩ := hs'
    have := chain_bounds h.chain x hx
    have := h.len
    simp only
    omega
  · have := length_le_flat h.nonempty
    have := h.len
    simp [Col.nodes]
    omega

theorem Chain.first {a : Nat} {segs : List (Seg α)} (h : Chain a segs) : ∀ s, segs[0]? = some s → s.start = a := by
  intro s hs
  cases segs with
  | nil => simp at hs
  | cons x r => simp at hs; subst hs; exact h.1

/-- The segment search finds the segment of every stored row and throws behind the last row. -/
theorem ColOk.segOf {c : Col α} {a : Nat} {vals : List α} (h : ColOk c a vals) {row : Nat} (hr : a ≤ row) :
    (∃ s ∈ c.segs, c.segOf row = .ok s ∧ s.start ≤ row ∧ row < s.start + s.cells.length ∧ row < a + vals.length) ∨
      (a + vals.length ≤ row ∧ c.segOf row = .throws) := by
  have hfirst : ∀ s, c.nodes[0]? = some s → s.start ≤ row := by
    intro s hs
    unfold Col.nodes at hs
    rw [List.getElem?_map, Option.map_eq_some_iff] at hs
    obtain ⟨x, hx, rfl⟩ := hs
    have := h.chain.first x hx
    simp only
    omega
  have hc := SegLookup.C41_lookup_partial c.nodes row h.ordered hfirst
  unfold Col.segOf SegLookup.segmentIndex
  cases ht : SegLookup.tryIndex c.nodes row with
  | ok r =>
    rw [ht] at hc
    cases r with
    | none =>
      right
      simp only [and_true]
      by_contra hlt
      obtain ⟨x, hx, h3, h4⟩ := chain_find h.chain (i := row - a) (by have := h.len; omega)
      have := hc ⟨x.start, x.cells.length⟩ (List.mem_map.mpr ⟨x, hx, rfl⟩)
      apply this
      constructor <;> simp only <;> omega
    | some i =>
      obtain ⟨s, hs, hcon⟩ := hc
      left
      unfold Col.nodes at hs
      rw [List.getElem?_map, Option.map_eq_some_iff] at hs
      obtain ⟨x, hx, rfl⟩ := hs
      simp only [hx]
      have hm := List.mem_of_getElem? hx
      have := chain_bounds h.chain x hm
      have h1 := hcon.1
      have h2 := hcon.2
      have := h.len
      simp only at h1 h2
      exact ⟨x, hm, rfl, h1, h2, by omega⟩
  | throws => rw [ht] at hc; exact hc.elim
  | ub => rw [ht] at hc; exact hc.elim
  | diverges => rw [ht] at hc; exact hc.elim

/-! ### Scanning -/

theorem scanLoop_ok : ∀ (segs : List (Seg α)) (cur b row n : Nat), segs ≠ [] → Chain b segs → b ≤ row →
    row ≤ b + (match segs with | [] => 0 | s :: _ => s.cells.length) →
    ∃ st, scanLoop segs cur row n = .ok (((flat segs).drop (row - b)).take n, st)
  | [], _, _, _, _, h, _, _, _ => (h rfl).elim
  | s :: rest, cur, b, row, n, _, hc, h1, h2 => by
    obtain ⟨h3, h4⟩ := hc
    simp only at h2
    unfold scanLoop
    by_cases hn : n = 0
    · subst hn; exact ⟨⟨cur, row⟩, by simp⟩
    · rw [if_neg hn, if_neg (by omega)]
      simp only
      have hdrop : (flat (s :: rest)).drop (row - b) = s.cells.drop (row - s.start) ++ flat rest := by
        rw [flat_cons, List.drop_append_of_le_length (by omega), h3]
      have hlen : (s.cells.drop (row - s.start)).length = s.start + s.cells.length - row := by simp; omega
      by_cases hk : n - min n (s.start + s.cells.length - row) = 0
      · rw [if_pos hk]
        refine ⟨_, congrArg (fun x => Res.ok (x, _)) ?_⟩
        rw [hdrop, List.take_append_of_le_length (by omega)]
        congr 1
        omega
      · rw [if_neg hk]
        have hmin : min n (s.start + s.cells.length - row) = s.start + s.cells.length - row := by omega
        rw [hmin]
        by_cases hr : rest = []
        · subst hr
          rw [List.isEmpty_nil, if_pos rfl]
          refine ⟨_, congrArg (fun x => Res.ok (x, _)) ?_⟩
          rw [hdrop, flat_nil, List.append_nil, List.take_of_length_le (by omega), List.take_of_length_le (by omega)]
        · have hre : rest.isEmpty = false := by cases rest with
            | nil => exact (hr rfl).elim
            | cons _ _ => rfl
          rw [hre, if_neg (by simp)]
          obtain ⟨st, hst⟩ := scanLoop_ok rest (cur + 1) (b + s.cells.length) (row + (s.start + s.cells.length - row))
            (n - (s.start + s.cells.length - row)) hr h4 (by omega) (by omega)
          refine ⟨st, ?_⟩
          rw [hst]
          simp only [Res.map'_ok]
          congr 2
          rw [hdrop, List.take_append, hlen, List.take_of_length_le (by omega)]
          have e : row + (s.start + s.cells.length - row) - (b + s.cells.length) = 0 := by omega
          rw [e, List.drop_zero, List.take_of_length_le (l := s.cells.drop _) (by omega)]

/-- A scan of the whole column (one vector) from its start. -/
theorem ColOk.scan {c : Col α} {a : Nat} {vals : List α} (h : ColOk c a vals) (hs : c.segs ≠ []) (f : Bool)
    (hf : f = false → c.upd = none) : ∃ st, c.scan 0 c.initScan vals.length f = .ok (vals, st) := by
  obtain ⟨s, r, hsr⟩ := List.exists_cons_of_ne_nil hs
  have hst : c.initScan = ⟨0, a⟩ := by
    unfold Col.initScan
    rw [hsr]
    have := h.chain.first s (by simp [hsr])
    simp only [this]
  obtain ⟨st, h1⟩ := scanLoop_ok c.segs 0 a a vals.length hs h.chain (by omega) (by omega)
  refine ⟨st, ?_⟩
  unfold Col.scan
  rw [hst]
  simp only [List.drop_zero]
  rw [h1]
  simp only [Res.map'_ok]
  congr 2
  rw [Nat.sub_self, List.drop_zero, List.take_of_length_le (by rw [h.len])]
  unfold Col.fetchUpdates
  cases f with
  | true =>
    rw [if_pos rfl]
    have hv := h.vals
    unfold Col.ups at hv
    cases hu : updNode c.upd 0 with
    | none => rw [hu] at hv; exact hv.symm
    | some u => rw [hu] at hv; exact hv.symm
  | false =>
    simp only [Bool.false_eq_true, if_false]
    have hv := h.vals
    unfold Col.ups at hv
    rw [hf rfl] at hv
    exact hv.symm

theorem ColOk.vectorCount {c : Col α} {a : Nat} {vals : List α} (h : ColOk c a vals) (hl : vals.length ≤ CAP) :
    c.vectorCount 0 = vals.length := by
  unfold Col.vectorCount
  rw [h.count]
  simp [hl]

theorem ColOk.flat_ok {c : Col α} {a : Nat} {vals : List α} (_ : ColOk c a vals) (hs : c.segs ≠ []) (n : Nat) :
    ∃ f, c.flat c.initScan n = .ok f ∧ (f = false → c.upd = none) := by
  obtain ⟨s, r, hsr⟩ := List.exists_cons_of_ne_nil hs
  unfold Col.flat
  cases hu : c.upd with
  | some u => exact ⟨true, by simp, by simp⟩
  | none =>
    simp only [Option.isSome_none, Bool.false_eq_true, if_false, Col.initScan, hsr, List.getElem?_cons_zero]
    exact ⟨_, rfl, by simp⟩

/-! ### Reading single rows -/

theorem updAt_eq (ups : List (Nat × α)) (hs : ups.Pairwise fun p q => p.1 < q.1) (i : Nat) :
    updAt ups i = (ups.find? fun p => decide (p.1 = i)).map Prod.snd := by
  unfold updAt
  induction ups with
  | nil => rfl
  | cons p ps ih =>
    rw [List.pairwise_cons] at hs
    rw [List.find?_cons, List.find?_cons]
    by_cases h1 : p.1 = i
    · simp [h1]
    · by_cases h2 : i ≤ p.1
      · have : ps.find? (fun p => decide (p.1 = i)) = none := by
          rw [List.find?_eq_none]
          intro q hq
          have := hs.1 q hq
          simp; omega
        simp [h1, h2, this]
      · simp only [h1, h2, decide_false]
        exact ih hs.2

theorem overlay_get (ups : List (Nat × α)) (hs : ups.Pairwise fun p q => p.1 < q.1) (l : List α) (i : Nat) {x : α}
    (hx : l[i]? = some x) : (overlay l ups)[i]? = some ((updAt ups i).getD x) := by
  rw [updAt_eq ups hs]
  unfold overlay
  induction ups generalizing l x with
  | nil => simpa using hx
  | cons p ps ih =>
    rw [List.pairwise_cons] at hs
    rw [List.foldl_cons, List.find?_cons]
    have hlt : i < l.length := (List.getElem?_eq_some_iff.mp hx).1
    by_cases h1 : p.1 = i
    · have h2 : ps.find? (fun p => decide (p.1 = i)) = none := by
        rw [List.find?_eq_none]
        intro q hq
        have := hs.1 q hq
        simp; omega
      rw [ih hs.2 (l.set p.1 p.2) (x := p.2) (by rw [h1]; simp [hlt]), h2]
      simp [h1]
    · rw [ih hs.2 (l.set p.1 p.2) (x := x) (by rw [List.getElem?_set_ne h1]; exact hx)]
      simp [h1]

theorem ColOk.fetchRow {c : Col α} {a : Nat} {vals : List α} (h : ColOk c a vals) (hl : vals.length ≤ CAP) {i : Nat} {x : α}
    (hx : vals[i]? = some x) : c.fetchRow (a + i) = .ok x := by
  have hi : i < vals.length := (List.getElem?_eq_some_iff.mp hx).1
  rcases h.segOf (row := a + i) (by omega) with ⟨s, hm, hs, h1, h2, h3⟩ | ⟨h1, _⟩
  · unfold Col.fetchRow
    rw [hs]
    simp only [Res.bind_ok]
    have hget := chain_get h.chain hm h1 h2
    rw [Nat.add_sub_cancel_left] at hget
    have hfl : i < (flat c.segs).length := by rw [h.len]; exact hi
    rw [List.getElem?_eq_getElem hfl] at hget
    unfold Seg.at
    rw [hget]
    simp only [Res.map'_ok]
    have hv : (overlay (flat c.segs) c.ups)[i]? = some x := by rw [← h.vals]; exact hx
    rw [overlay_get _ h.upd.sorted _ _ (List.getElem?_eq_getElem hfl)] at hv
    have hr : c.updRow (a + i) = updAt c.ups i := by
      unfold Col.updRow Col.ups
      have e0 : (a + i - c.start) / CAP = 0 := by
        rw [h.start]; apply Nat.div_eq_of_lt; omega
      rw [e0, h.start]
      cases updNode c.upd 0 with
      | none => rfl
      | some u => simp
    rw [hr]
    simp only [Option.some.injEq] at hv
    rw [hv]
  · omega

end Table
end Verif
