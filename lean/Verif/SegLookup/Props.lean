import Verif.SegLookup.Model
/-! C41: looking up the segment of a row. -/
namespace Verif.SegLookup
open Verif

/-- Specification: the rows of a segment. -/
def Seg.Contains (s : Seg) (row : Nat) : Prop := s.start ≤ row ∧ row < s.start + s.count

/-- A segment list as tables build it: ascending and disjoint (gaps and empty segments allowed),
row numbers and the number of segments below the machine limits. -/
structure Ordered (nodes : List Seg) : Prop where
  sorted : nodes.Pairwise fun a b => a.start + a.count ≤ b.start
  small : ∀ s ∈ nodes, s.start + s.count < 2 ^ 64
  short : nodes.length < 2 ^ 63

/-- The answer the caller expects. -/
def Correct (nodes : List Seg) (row : Nat) : Res (Option Nat) → Prop
  | .ok (some i) => ∃ s, nodes[i]? = some s ∧ s.Contains row
  | .ok none => ∀ s ∈ nodes, ¬ s.Contains row
  | _ => False

theorem sorted_get {nodes : List Seg} (h : nodes.Pairwise fun a b => a.start + a.count ≤ b.start)
    {i j : Nat} {a b : Seg} (ha : nodes[i]? = some a) (hb : nodes[j]? = some b) (hij : i < j) :
    a.start + a.count ≤ b.start := by
  obtain ⟨hi, rfl⟩ := List.getElem?_eq_some_iff.mp ha
  obtain ⟨hj, rfl⟩ := List.getElem?_eq_some_iff.mp hb
  exact List.pairwise_iff_getElem.mp h i j hi hj hij

theorem bsearch_correct {nodes : List Seg} {row : Nat} (h : Ordered nodes)
    (hfirst : ∀ s, nodes[0]? = some s → s.start ≤ row) (fuel lower upper : Nat)
    (hlu : lower ≤ upper + 1) (hu : upper < nodes.length) (hf : upper + 2 ≤ fuel + lower)
    (hlow : ∀ i s, nodes[i]? = some s → i < lower → s.start + s.count ≤ row)
    (hhigh : ∀ i s, nodes[i]? = some s → upper < i → row < s.start) :
    Correct nodes row (bsearch nodes row fuel lower upper) := by
  induction fuel generalizing lower upper with
  | zero => omega
  | succ f ih =>
    have hshort := h.short
    unfold bsearch
    by_cases hle : lower ≤ upper
    · rw [if_pos hle]
      have hmod : (lower + upper) % 2 ^ 64 = lower + upper := Nat.mod_eq_of_lt (by omega)
      simp only [hmod]
      have hidx : (lower + upper) / 2 < nodes.length := by omega
      have hget : nodes[(lower + upper) / 2]? = some nodes[(lower + upper) / 2] := List.getElem?_eq_getElem hidx
      generalize he : nodes[(lower + upper) / 2] = e at hget
      rw [hget]
      simp only
      have hmem : e ∈ nodes := List.mem_of_getElem? hget
      have hsm := h.small e hmem
      rw [Nat.mod_eq_of_lt hsm]
      by_cases h1 : row < e.start
      · rw [if_pos h1]
        have hne : (lower + upper) / 2 ≠ 0 := by
          intro h0
          rw [h0] at hget
          have := hfirst e hget
          omega
        rw [if_neg hne]
        by_cases hlo : lower = 0 ∨ lower ≤ (lower + upper) / 2 - 1 + 1
        · apply ih <;> first | omega | assumption | skip
          intro i s hs hi
          by_cases hii : i = (lower + upper) / 2
          · subst hii; rw [hget] at hs; cases hs; exact h1
          · have := sorted_get h.sorted hget hs (by omega)
            omega
        · omega
      · rw [if_neg h1]
        by_cases h2 : e.start + e.count ≤ row
        · rw [if_pos h2]
          apply ih <;> first | omega | assumption | skip
          intro i s hs hi
          by_cases hii : i = (lower + upper) / 2
          · subst hii; rw [hget] at hs; cases hs; exact h2
          · have := sorted_get h.sorted hs hget (by omega)
            omega
        · rw [if_neg h2]
          exact ⟨e, hget, by omega, by omega⟩
    · rw [if_neg hle]
      intro s hs hc
      obtain ⟨i, hi⟩ := List.getElem?_of_mem hs
      rcases Nat.lt_or_ge i lower with hil | hil
      · have := hlow i s hi hil
        have := hc.2
        omega
      · have := hhigh i s hi (by omega)
        have := hc.1
        omega

/-- The full C41 claim. -/
def C41_claim : Prop := ∀ nodes row, Ordered nodes → Correct nodes row (tryIndex nodes row)

/-- A row in front of the first segment makes the search leave the array, in every non-empty
segment list. -/
theorem C41_row_before_first_is_ub (s : Seg) (rest : List Seg) (row : Nat) (h : Ordered (s :: rest))
    (hrow : row < s.start) : tryIndex (s :: rest) row = .ub := by
  have hall : ∀ (i : Nat) (t : Seg), (s :: rest)[i]? = some t → row < t.start := by
    intro i t ht
    cases i with
    | zero => simp at ht; subst ht; exact hrow
    | succ i =>
      have := sorted_get h.sorted (i := 0) (j := i + 1) (a := s) (by simp) ht (by omega)
      omega
  unfold tryIndex
  simp only [List.isEmpty_cons, Bool.false_eq_true, if_false]
  have hshort := h.short
  suffices ∀ fuel upper, upper + 2 ≤ fuel → upper < (s :: rest).length →
      bsearch (s :: rest) row fuel 0 upper = .ub from
    this _ _ (by simp) (by simp)
  intro fuel
  induction fuel with
  | zero => intro upper h1; omega
  | succ f ih =>
    intro upper h1 h2
    unfold bsearch
    have hmod : (0 + upper) % 2 ^ 64 = upper := by rw [Nat.zero_add]; exact Nat.mod_eq_of_lt (by omega)
    rw [if_pos (Nat.zero_le _)]
    simp only [hmod]
    have hidx : upper / 2 < (s :: rest).length := by omega
    have hget : (s :: rest)[upper / 2]? = some (s :: rest)[upper / 2] := List.getElem?_eq_getElem hidx
    rw [hget]
    simp only
    rw [if_pos (hall _ _ hget)]
    by_cases h0 : upper / 2 = 0
    · rw [if_pos h0]
      obtain ⟨g, rfl⟩ : ∃ g, f = g + 1 := ⟨f - 1, by omega⟩
      unfold bsearch
      rw [if_pos (Nat.zero_le _)]
      have hnone : (s :: rest)[((0 + (2 ^ 64 - 1)) % 2 ^ 64) / 2]? = none := by
        apply List.getElem?_eq_none
        omega
      simp only [hnone]
    · rw [if_neg h0]
      exact ih _ (by omega) (by omega)

/-- **C41 fails** for a row in front of the first segment. -/
theorem C41_lookup_fails : ¬ C41_claim := by
  intro h
  have ho : Ordered [⟨5, 3⟩] := ⟨by simp, by simp, by simp⟩
  have := h [⟨5, 3⟩] 2 ho
  rw [C41_row_before_first_is_ub _ _ _ ho (by decide)] at this
  exact this

/-- **C41, partial**: for every ordered segment list and every row at or behind the first
segment's start, the search ends inside the array, finds the segment containing the row if
there is one, and reports absence otherwise. Missing: rows in front of the first segment (false,
see above). -/
theorem C41_lookup_partial (nodes : List Seg) (row : Nat) (h : Ordered nodes)
    (hfirst : ∀ s, nodes[0]? = some s → s.start ≤ row) : Correct nodes row (tryIndex nodes row) := by
  unfold tryIndex
  cases nodes with
  | nil => simp [Correct]
  | cons s rest =>
    simp only [List.isEmpty_cons, Bool.false_eq_true, if_false]
    apply bsearch_correct h hfirst
    · omega
    · simp
    · simp
    · intro i s _ hi; omega
    · intro i t ht hi
      obtain ⟨hlt, _⟩ := List.getElem?_eq_some_iff.mp ht
      simp at hi hlt
      omega

/-- In a table whose first segment starts at row 0 (all tables created by `data_table_t`), the
lookup is right for every row. -/
theorem C41_lookup_from_zero (s : Seg) (rest : List Seg) (row : Nat) (h : Ordered (s :: rest)) (h0 : s.start = 0) :
    Correct (s :: rest) row (tryIndex (s :: rest) row) :=
  C41_lookup_partial _ row h (by intro t ht; simp at ht; subst ht; omega)

/-- The found segment is the only one containing the row. -/
theorem C41_segment_unique (nodes : List Seg) (row i j : Nat) (a b : Seg) (h : Ordered nodes)
    (hi : nodes[i]? = some a) (hj : nodes[j]? = some b) (ha : a.Contains row) (hb : b.Contains row) : i = j := by
  rcases Nat.lt_trichotomy i j with hlt | heq | hgt
  · have := sorted_get h.sorted hi hj hlt
    have := ha.2; have := hb.1; omega
  · exact heq
  · have := sorted_get h.sorted hj hi hgt
    have := hb.2; have := ha.1; omega

/-- `get_segment` returns the segment containing the row, or throws when there is none. -/
theorem C41_get_segment (nodes : List Seg) (row : Nat) (h : Ordered nodes)
    (hfirst : ∀ s, nodes[0]? = some s → s.start ≤ row) :
    (∃ s ∈ nodes, s.Contains row ∧ getSegment nodes row = .ok s) ∨
      ((∀ s ∈ nodes, ¬ s.Contains row) ∧ getSegment nodes row = .throws) := by
  have hc := C41_lookup_partial nodes row h hfirst
  unfold getSegment segmentIndex
  cases ht : tryIndex nodes row with
  | ok r =>
    rw [ht] at hc
    cases r with
    | none => exact .inr ⟨hc, rfl⟩
    | some i =>
      obtain ⟨s, hs, hcon⟩ := hc
      left
      exact ⟨s, List.mem_of_getElem? hs, hcon, by simp [hs]⟩
  | throws => rw [ht] at hc; exact hc.elim
  | ub => rw [ht] at hc; exact hc.elim
  | diverges => rw [ht] at hc; exact hc.elim

/-- Appending a segment behind the last one, and cutting the list, keep it ordered. -/
theorem C41_append_ordered (nodes : List Seg) (s : Seg) (h : Ordered nodes)
    (hs : ∀ t ∈ nodes, t.start + t.count ≤ s.start) (hsmall : s.start + s.count < 2 ^ 64)
    (hlen : nodes.length + 1 < 2 ^ 63) : Ordered (appendSegment nodes s) := by
  constructor
  · unfold appendSegment
    rw [List.pairwise_append]
    exact ⟨h.sorted, by simp, by simpa using hs⟩
  · intro t ht
    simp [appendSegment] at ht
    rcases ht with ht | rfl
    · exact h.small t ht
    · exact hsmall
  · simp [appendSegment]; omega

theorem C41_erase_ordered (nodes nodes' : List Seg) (k : Nat) (h : Ordered nodes)
    (he : eraseSegments nodes k = .ok nodes') : Ordered nodes' ∧ nodes' = nodes.take (k + 1) := by
  have hshort := h.short
  have htake : Ordered (nodes.take (k + 1)) := by
    refine ⟨List.Pairwise.sublist (List.take_sublist _ _) h.sorted, ?_, ?_⟩
    · intro s hs; exact h.small s (List.mem_of_mem_take hs)
    · simp; omega
  unfold eraseSegments at he
  simp only at he
  by_cases h0 : nodes.length = 0
  · rw [if_pos h0] at he
    by_cases h1 : 2 ^ 64 - 1 ≤ k
    · rw [if_pos h1] at he
      cases he
      exact ⟨h, by rw [List.take_of_length_le (by omega)]⟩
    · rw [if_neg h1, if_neg (by omega)] at he
      cases he
  · rw [if_neg h0] at he
    by_cases h1 : nodes.length - 1 ≤ k
    · rw [if_pos h1] at he
      cases he
      exact ⟨h, by rw [List.take_of_length_le (by omega)]⟩
    · rw [if_neg h1, if_pos (by omega)] at he
      cases he
      exact ⟨htake, rfl⟩

/-- `reinitialize` succeeds exactly on gap-free lists, and gap-free lists are ordered. -/
theorem reinitLoop_ok (offset : Nat) (nodes : List Seg) :
    reinitLoop offset nodes = .ok () ↔
      ∀ i s, nodes[i]? = some s → s.start = offset + ((nodes.take i).map (·.count)).sum := by
  induction nodes generalizing offset with
  | nil => simp [reinitLoop]
  | cons s rest ih =>
    unfold reinitLoop
    by_cases hs : s.start = offset
    · simp only [hs, ne_eq, not_true, if_false]
      rw [ih]
      constructor
      · intro h i t ht
        cases i with
        | zero => simp at ht; subst ht; simp [hs]
        | succ i =>
          simp at ht
          rw [h i t ht]; simp; omega
      · intro h i t ht
        have := h (i + 1) t (by simpa using ht)
        rw [List.take_succ_cons, List.map_cons, List.sum_cons] at this; omega
    · simp only [ne_eq, hs, not_false_eq_true, if_true]
      constructor
      · intro h; cases h
      · intro h
        have := h 0 s (by simp)
        simp at this
        exact absurd this hs

theorem sum_take_le (l : List Nat) {i j : Nat} (hij : i ≤ j) : (l.take i).sum ≤ (l.take j).sum := by
  obtain ⟨d, rfl⟩ := Nat.exists_eq_add_of_le hij
  rw [List.take_add, List.sum_append]
  omega

theorem C41_reinitialize_ordered (s : Seg) (rest : List Seg) (h : reinitialize (s :: rest) = .ok ())
    (hsmall : ∀ t ∈ s :: rest, t.start + t.count < 2 ^ 64) (hlen : (s :: rest).length < 2 ^ 63) :
    Ordered (s :: rest) := by
  unfold reinitialize at h
  rw [reinitLoop_ok] at h
  refine ⟨?_, hsmall, hlen⟩
  rw [List.pairwise_iff_getElem]
  intro i j hi hj hij
  have h1 := h i _ (List.getElem?_eq_getElem hi)
  have h2 := h j _ (List.getElem?_eq_getElem hj)
  rw [h1, h2]
  have e : (((s :: rest).take (i + 1)).map (·.count)).sum =
      (((s :: rest).take i).map (·.count)).sum + (s :: rest)[i].count := by
    rw [List.take_succ_eq_append_getElem hi, List.map_append, List.sum_append]
    simp only [List.map_cons, List.map_nil, List.sum_cons, List.sum_nil, Nat.add_zero]
  have := sum_take_le ((s :: rest).map (·.count)) (i := i + 1) (j := j) (by omega)
  rw [← List.map_take, ← List.map_take] at this
  omega

/-! Non-vacuity: three segments, one of them empty, with a gap. -/
theorem sample_ordered : Ordered [⟨0, 4⟩, ⟨4, 0⟩, ⟨10, 2⟩] := ⟨by simp, by simp, by simp⟩
example : tryIndex [⟨0, 4⟩, ⟨4, 0⟩, ⟨10, 2⟩] 11 = .ok (some 2) := by decide
example : tryIndex [⟨0, 4⟩, ⟨4, 0⟩, ⟨10, 2⟩] 7 = .ok none := by decide
example : Correct [⟨0, 4⟩, ⟨4, 0⟩, ⟨10, 2⟩] 11 (tryIndex [⟨0, 4⟩, ⟨4, 0⟩, ⟨10, 2⟩] 11) :=
  C41_lookup_from_zero _ _ _ sample_ordered rfl
example : reinitialize [⟨3, 4⟩, ⟨7, 0⟩, ⟨7, 2⟩] = .ok () := by decide
example : eraseSegments [⟨0, 4⟩, ⟨4, 0⟩, ⟨10, 2⟩] 0 = .ok [⟨0, 4⟩] := by decide

end Verif.SegLookup
