import Verif.Validity.Count
/-! C40: null masks act row-wise. -/
namespace Verif.Validity
open Verif

/-! ### Reading and writing single rows -/

/-- **C40** `row_is_valid` answers for the row asked about. -/
theorem C40_row_is_valid (m : Mask) (hwf : m.WF) (row : Nat) (hrow : row < m.count) :
    rowIsValid m row = .ok (m.valid row) := rowIsValid_spec m hwf row (div_lt_of_lt hrow)

/-- **C40** `set(row, v)` changes exactly that row, for every mask size and row. -/
theorem C40_set (m : Mask) (hwf : m.WF) (row : Nat) (v : Bool) (hrow : row < m.count) :
    ∃ m', set m row v = .ok m' ∧ m'.WF ∧ m'.count = m.count ∧
      ∀ j, j < m.count → m'.valid j = if j = row then v else m.valid j := by
  obtain ⟨m', h1, h2, h3, h4⟩ := set_spec m hwf row v hrow
  exact ⟨m', h1, h2, h3, fun j hj => h4 j (div_lt_of_lt hj)⟩

/-- **C40** `set_invalid(row)` marks exactly that row null. -/
theorem C40_set_invalid (m : Mask) (hwf : m.WF) (row : Nat) (hrow : row < m.count) :
    ∃ m', setInvalid m row = .ok m' ∧ m'.WF ∧ m'.count = m.count ∧
      ∀ j, j < m.count → m'.valid j = if j = row then false else m.valid j := by
  obtain ⟨m', h1, h2, h3, _, h4⟩ := setInvalid_spec m hwf row hrow
  exact ⟨m', h1, h2, h3, fun j hj => h4 j (div_lt_of_lt hj)⟩

/-- The claim for `set_valid`. -/
def C40_set_valid_claim : Prop := ∀ (m : Mask) (row : Nat), m.WF → row < m.count →
  ∃ m', setValid m row = .ok m' ∧ ∀ j, j < m.count → m'.valid j = if j = row then true else m.valid j

/-- **C40 fails** for `set_valid`, whatever the mask: called on row 0 of a mask of at least two
rows it makes row 1 null. -/
theorem C40_set_valid_nulls_row_one (m : Mask) (hwf : m.WF) (h2 : 2 ≤ m.count) :
    ∃ m', setValid m 0 = .ok m' ∧ m'.valid 1 = false := by
  have hl := ensure_length hwf
  refine ⟨⟨some ((ensureWords m).set 0 1#64), m.count⟩, ?_, ?_⟩
  · unfold setValid setWord; rw [if_pos (by omega)]
  · rw [valid_some, bitAt_set _ _ _ (by omega), if_pos (by decide)]
    decide

/-- And a null row other than row 0 stays null. -/
theorem C40_set_valid_fails : ¬ C40_set_valid_claim := by
  intro h
  obtain ⟨m', h1, h2⟩ := h (Mask.new 2) 0 (by intro ws hw; simp [Mask.new] at hw; subst hw; simp [freshData, Mask.new]) (by decide)
  obtain ⟨m'', h3, h4⟩ := C40_set_valid_nulls_row_one (Mask.new 2)
    (by intro ws hw; simp [Mask.new] at hw; subst hw; simp [freshData, Mask.new]) (by decide)
  rw [h1] at h3
  cases h3
  have := h2 1 (by decide)
  rw [h4] at this
  revert this
  decide

/-! ### Marking a range null -/

/-- The claim for `set_all_invalid(n)`: the first `n` rows become null, no other row changes. -/
def C40_set_all_invalid_claim : Prop := ∀ (m : Mask) (n : Nat), m.WF → n ≤ m.count →
  ∃ m', setAllInvalid m n = .ok m' ∧ ∀ j, j < m.count → m'.valid j = if j < n then false else m.valid j

/-- **C40 fails**: on a mask without buffer (all valid) a null pointer is written. -/
theorem C40_set_all_invalid_null_pointer (c n : Nat) (hn : 0 < n) : setAllInvalid ⟨none, c⟩ n = .ub := by
  unfold setAllInvalid; rw [if_neg (by omega)]

theorem C40_set_all_invalid_fails : ¬ C40_set_all_invalid_claim := by
  intro h
  obtain ⟨m', h1, _⟩ := h ⟨none, 3⟩ 2 (by intro ws hw; simp at hw) (by decide)
  rw [C40_set_all_invalid_null_pointer 3 2 (by decide)] at h1
  cases h1

/-- A row behind the range that was null becomes valid (it shares the last word of the range). -/
theorem C40_set_all_invalid_revives_row :
    ∃ m m', setInvalid (Mask.new 4) 3 = .ok m ∧ m.valid 3 = false ∧ setAllInvalid m 2 = .ok m' ∧ m'.valid 3 = true := by
  refine ⟨⟨some [~~~(1#64 <<< 3), maxEntry, maxEntry, maxEntry], 4⟩,
    ⟨some [maxEntry <<< 2, maxEntry, maxEntry, maxEntry], 4⟩, ?_, ?_, ?_, ?_⟩ <;> decide

/-- **C40, partial** for `set_all_invalid(n)` on a mask with a buffer: the first `n` rows become
null; rows behind the last touched word keep their state. Missing: rows behind the range in the
same word become valid, masks without a buffer (both false, see above). -/
theorem C40_set_all_invalid_partial (ws : List Word) (c n : Nat) (hwf : Mask.WF ⟨some ws, c⟩) (hn : n ≤ c) :
    ∃ m', setAllInvalid ⟨some ws, c⟩ n = .ok m' ∧ m'.WF ∧ m'.count = c ∧
      (∀ j, j < n → m'.valid j = false) ∧
      (∀ j, 64 * entryCount n ≤ j → j < c → m'.valid j = Mask.valid ⟨some ws, c⟩ j) := by
  have hl : ws.length = c := hwf ws rfl
  by_cases h0 : n = 0
  · subst h0
    exact ⟨⟨some ws, c⟩, by simp [setAllInvalid], hwf, rfl, by intro j hj; omega, by intro j _ _; rfl⟩
  · have hlast : entryCount n - 1 < ws.length := by unfold entryCount; omega
    have hlen : (List.replicate (entryCount n - 1) 0#64 ++ ws.drop (entryCount n - 1)).length = ws.length := by
      simp; omega
    refine ⟨⟨some ((List.replicate (entryCount n - 1) 0#64 ++ ws.drop (entryCount n - 1)).set (entryCount n - 1)
      (if n % 64 = 0 then 0#64 else maxEntry <<< (n % 64))), c⟩, by
        unfold setAllInvalid; simp only [h0, if_false, hlast, if_true], ?_, rfl, ?_, ?_⟩
    · intro ws' hws'
      simp only [Option.some.injEq] at hws'
      subst hws'
      rw [List.length_set, hlen]; exact hl
    · intro j hj
      rw [valid_some, bitAt_set _ _ _ (by rw [hlen]; exact hlast)]
      by_cases hjl : j / 64 = entryCount n - 1
      · rw [if_pos hjl]
        have hm : j % 64 < 64 := Nat.mod_lt _ (by decide)
        by_cases hr : n % 64 = 0
        · rw [if_pos hr]; simp
        · rw [if_neg hr, maxShl_bit _ _ hm]
          unfold entryCount at hjl
          simp; omega
      · rw [if_neg hjl]
        unfold bitAt
        have : j / 64 < entryCount n - 1 := by unfold entryCount at hjl ⊢; omega
        rw [List.getElem?_append_left (by simpa using this), List.getElem?_replicate, if_pos this]
        simp
    · intro j hj1 hj2
      have he1 : 1 ≤ entryCount n := by unfold entryCount; omega
      rw [valid_some, valid_some, bitAt_set _ _ _ (by rw [hlen]; exact hlast), if_neg (by omega)]
      unfold bitAt
      rw [List.getElem?_append_right (by simp; omega), List.getElem?_drop]
      simp only [List.length_replicate]
      congr 2
      omega

/-! ### Counting -/

/-- The claim for `count_valid`. -/
def C40_count_valid_claim : Prop := ∀ (m : Mask) (n : Nat), m.WF → n ≤ m.count →
  countValid m n = .ok (m.validCount n)

/-- **C40 fails** for `count_valid` on row counts that are no multiple of 64: two valid rows are
counted as three. -/
theorem C40_count_valid_fails : ¬ C40_count_valid_claim := by
  intro h
  have := h (Mask.new 2) 2 (by intro ws hw; simp [Mask.new] at hw; subst hw; simp [freshData, Mask.new]) (by decide)
  revert this
  decide

/-- **C40, partial**: for multiples of 64, and for masks without buffer, `count_valid` is the
number of valid rows. Missing: other counts (false, see above). -/
theorem C40_count_valid_partial (m : Mask) (hwf : m.WF) (n : Nat) (hn : n ≤ m.count)
    (h : n % 64 = 0 ∨ m.words = none) : countValid m n = .ok (m.validCount n) := by
  unfold Mask.validCount
  rw [← List.countP_eq_length_filter]
  cases hw : m.words with
  | none =>
    have : ∀ i, m.valid i = true := by intro i; unfold Mask.valid; simp [hw]
    unfold countValid
    simp only [hw]
    congr 1
    rw [List.countP_eq_length.mpr (fun i _ => this i)]
    simp
  | some ws =>
    have h64 : n % 64 = 0 := by
      rcases h with h | h
      · exact h
      · rw [hw] at h; cases h
    have hl := hwf ws hw
    have hv : m.valid = bitAt ws := by
      funext i; unfold Mask.valid bitAt; simp only [hw]; rfl
    have he : entryCount n = n / 64 := by unfold entryCount; omega
    unfold countValid
    simp only [hw]
    by_cases h0 : n = 0
    · subst h0; simp
    · rw [if_neg h0, if_pos (by rw [he]; omega), countLoop_eq _ _ h64, hv, he]
      have := countP_bits ws (n / 64) (by omega)
      have e : 64 * (n / 64) = n := by omega
      rw [e] at this
      rw [this]; simp

/-! ### Copying ranges -/

/-- The claim for `slice_in_place`: rows `to … to+count-1` take the state of the source rows,
the other rows stay. -/
def C40_slice_in_place_claim : Prop := ∀ (m other : Mask) (to sro count : Nat), m.WF → other.WF →
  to + count ≤ m.count → sro + count ≤ other.count →
  ∃ m', sliceInPlace m other to sro count = .ok m' ∧ m'.WF ∧ m'.count = m.count ∧
    ∀ j, j < m.count → m'.valid j = if to ≤ j ∧ j < to + count then other.valid (sro + (j - to)) else m.valid j

/-- **C40 fails**: a source without buffer (all rows valid), read from an offset that is no
multiple of 64 into an aligned target, is a null pointer access. -/
theorem C40_slice_from_all_valid_is_ub (ws : List Word) (c c' to sro count : Nat) (hto : to % 64 = 0)
    (hs : sro % 64 ≠ 0) : sliceInPlace ⟨some ws, c⟩ ⟨none, c'⟩ to sro count = .ub := by
  unfold sliceInPlace
  rw [if_neg (by simp)]
  simp only
  rw [if_neg (by omega), if_pos hto]
  rfl

theorem C40_slice_in_place_fails : ¬ C40_slice_in_place_claim := by
  intro h
  obtain ⟨m', h1, _⟩ := h (Mask.new 4) ⟨none, 4⟩ 0 1 2
    (by intro ws hw; simp [Mask.new] at hw; subst hw; simp [freshData, Mask.new]) (by intro ws hw; simp at hw)
    (by decide) (by decide)
  rw [show Mask.new 4 = ⟨some (freshData 4), 4⟩ from rfl, C40_slice_from_all_valid_is_ub _ _ _ _ _ _ (by decide) (by decide)] at h1
  cases h1

/-- **C40, partial**: for every pair of masks, every offset pair (aligned or not) and every
count, `slice_in_place` acts row-wise. Missing: a source without buffer read from an unaligned
offset into an aligned target (false, see above). -/
theorem C40_slice_in_place_partial (m other : Mask) (to sro count : Nat) (hm : m.WF) (ho : other.WF)
    (ht : to + count ≤ m.count) (hs : sro + count ≤ other.count)
    (hex : other.words ≠ none ∨ m.words = none ∨ sro % 64 = 0 ∨ to % 64 ≠ 0) :
    ∃ m', sliceInPlace m other to sro count = .ok m' ∧ m'.WF ∧ m'.count = m.count ∧
      ∀ j, j < m.count → m'.valid j = if to ≤ j ∧ j < to + count then other.valid (sro + (j - to)) else m.valid j := by
  unfold sliceInPlace
  have hl := ensure_length hm
  by_cases hnone : m.words.isNone ∧ other.words.isNone
  · rw [if_pos hnone]
    refine ⟨m, rfl, hm, rfl, ?_⟩
    intro j _
    have h1 : m.words = none := by simpa using hnone.1
    have h2 : other.words = none := by simpa using hnone.2
    unfold Mask.valid
    simp [h1, h2]
  · rw [if_neg hnone]
    simp only
    have hsl : ∀ ws, other.words = some ws → sro + count ≤ 64 * ws.length := by
      intro ws hw; rw [ho ws hw]; omega
    have hsrc : ∀ i, srcBit other.words i = other.valid i := by
      intro i; unfold srcBit Mask.valid bitAt
      cases other.words <;> rfl
    by_cases hal : sro % 64 = 0 ∧ to % 64 = 0
    · rw [if_pos hal]
      obtain ⟨t, h1, h2, h3⟩ := sliceAligned_spec (ensureWords m) other.words to sro count hal.2 hal.1 (by omega) hsl
      rw [h1]
      refine ⟨⟨some t, m.count⟩, rfl, ?_, rfl, ?_⟩
      · intro ws hws; simp at hws; subst hws; simpa [hl] using h2
      · intro j hj
        rw [valid_some, h3 j (by omega), hsrc, ensure_valid m j (div_lt_of_lt hj)]
    · rw [if_neg hal]
      by_cases hta : to % 64 = 0
      · rw [if_pos hta]
        have hsu : sro % 64 ≠ 0 := fun h => hal ⟨h, hta⟩
        cases how : other.words with
        | none =>
          exfalso
          rcases hex with h | h | h | h
          · exact h how
          · exact hnone ⟨by simp [h], by simp [how]⟩
          · exact hsu h
          · exact h hta
        | some ws =>
          obtain ⟨t, h1, h2, h3⟩ := sliceShift_spec (ensureWords m) ws to sro count hta hsu (by omega) (hsl ws how)
          rw [h1]
          refine ⟨⟨some t, m.count⟩, rfl, ?_, rfl, ?_⟩
          · intro ws' hws; simp at hws; subst hws; simpa [hl] using h2
          · intro j hj
            have hv : ∀ i, bitAt ws i = other.valid i := by
              intro i; rw [← hsrc, how]; rfl
            rw [valid_some, h3 j (by omega), hv, ensure_valid m j (div_lt_of_lt hj)]
      · rw [if_neg hta]
        obtain ⟨m', h1, h2, h3, h4⟩ := setRows_spec other ho to (fun i => sro + i) count 0
          ⟨some (ensureWords m), m.count⟩ (by intro ws hws; simp at hws; subst hws; exact hl) (by simpa using ht)
          (by intro k _ hk; exact div_lt_of_lt (by omega))
        refine ⟨m', h1, h2, h3, ?_⟩
        intro j hj
        rw [h4 j (div_lt_of_lt hj), valid_some, ensure_valid m j (div_lt_of_lt hj)]
        simp only [Nat.add_zero]

/-- **C40** `slice`: row `i` of the result is row `offset + i` of the source, for every mask,
offset and count (the result's row count is not part of this). -/
theorem C40_slice (m other : Mask) (offset count : Nat) (ho : other.WF) (hs : offset + count ≤ other.count) :
    ∃ m', slice m other offset count = .ok m' ∧ ∀ j, j < count → m'.valid j = other.valid (offset + j) := by
  unfold slice
  cases hw : other.words with
  | none =>
    refine ⟨⟨none, m.count⟩, rfl, ?_⟩
    intro j _
    unfold Mask.valid; simp [hw]
  | some ws =>
    simp only
    by_cases h0 : offset = 0
    · rw [if_pos h0]
      exact ⟨other, rfl, by intro j _; rw [h0, Nat.zero_add]⟩
    · rw [if_neg h0]
      obtain ⟨m', h1, h2, h3, h4⟩ := C40_slice_in_place_partial (Mask.new count) other 0 offset count
        (by intro ws' hws; simp [Mask.new] at hws; subst hws; simp [freshData, Mask.new]) ho (by simp [Mask.new]) hs
        (by left; rw [hw]; simp)
      refine ⟨m', h1, ?_⟩
      intro j hj
      rw [h4 j hj, if_pos (by omega)]
      congr 1

/-- **C40** `copy_indexing` with an indexing vector: target row `to + i` takes the state of
source row `indexing[sro + i]`, all other rows stay, for all offsets and counts. -/
theorem C40_copy_indexing (m other : Mask) (idx : List Nat) (sro to count : Nat) (hm : m.WF) (ho : other.WF)
    (ht : to + count ≤ m.count) (hidx : sro + count ≤ idx.length)
    (hsrc : ∀ k, k < count → idx.getD (sro + k) 0 < other.count) :
    ∃ m', copyIndexing m other (some idx) sro to count = .ok m' ∧ m'.WF ∧ m'.count = m.count ∧
      ∀ j, j < m.count → m'.valid j =
        if to ≤ j ∧ j < to + count then other.valid (idx.getD (sro + (j - to)) 0) else m.valid j := by
  unfold copyIndexing
  by_cases hnone : other.words.isNone ∧ m.words.isNone
  · rw [if_pos hnone]
    refine ⟨m, rfl, hm, rfl, ?_⟩
    intro j _
    have h1 : m.words = none := by simpa using hnone.2
    have h2 : other.words = none := by simpa using hnone.1
    unfold Mask.valid
    simp [h1, h2]
  · rw [if_neg hnone]
    simp only
    rw [if_pos hidx]
    obtain ⟨m', h1, h2, h3, h4⟩ := setRows_spec other ho to (fun i => idx.getD (sro + i) 0) count 0 m hm
      (by simpa using ht) (by intro k _ hk; exact div_lt_of_lt (hsrc k (by omega)))
    refine ⟨m', h1, h2, h3, ?_⟩
    intro j hj
    rw [h4 j (div_lt_of_lt hj)]
    simp only [Nat.add_zero]

/-- **C40** `copy_indexing` without an indexing vector. -/
theorem C40_copy_plain (m other : Mask) (sro to count : Nat) (hm : m.WF) (ho : other.WF)
    (ht : to + count ≤ m.count) (hs : sro + count ≤ other.count) :
    ∃ m', copyIndexing m other none sro to count = .ok m' ∧ m'.WF ∧ m'.count = m.count ∧
      ∀ j, j < m.count → m'.valid j =
        if to ≤ j ∧ j < to + count then other.valid (sro + (j - to)) else m.valid j := by
  unfold copyIndexing
  by_cases hnone : other.words.isNone ∧ m.words.isNone
  · rw [if_pos hnone]
    refine ⟨m, rfl, hm, rfl, ?_⟩
    intro j _
    have h1 : m.words = none := by simpa using hnone.2
    have h2 : other.words = none := by simpa using hnone.1
    unfold Mask.valid
    simp [h1, h2]
  · rw [if_neg hnone]
    simp only
    by_cases hal : sro % 64 = 0 ∧ to % 64 = 0
    · rw [if_pos hal]
      exact C40_slice_in_place_partial m other to sro count hm ho ht hs (.inr (.inr (.inl hal.1)))
    · rw [if_neg hal]
      obtain ⟨m', h1, h2, h3, h4⟩ := setRows_spec other ho to (fun i => sro + i) count 0 m hm
        (by simpa using ht) (by intro k _ hk; exact div_lt_of_lt (by omega))
      refine ⟨m', h1, h2, h3, ?_⟩
      intro j hj
      rw [h4 j (div_lt_of_lt hj)]
      simp only [Nat.add_zero]

/-- **C40** copying a mask keeps every row. -/
theorem C40_copy (m : Mask) (hwf : m.WF) : ∃ m', m.copy = .ok m' ∧ m'.WF ∧ m'.count = m.count ∧
    ∀ j, m'.valid j = m.valid j := by
  unfold Mask.copy
  cases hw : m.words with
  | none => exact ⟨⟨none, m.count⟩, rfl, by intro ws h; simp at h, rfl, by intro j; unfold Mask.valid; simp [hw]⟩
  | some ws =>
    have hl := hwf ws hw
    have : copyData ws m.count = .ok ws := by
      unfold copyData; rw [if_pos (by omega), List.take_of_length_le (by omega)]
    simp only [this]
    exact ⟨⟨some ws, m.count⟩, rfl, by intro ws' h; simp at h; subst h; exact hl, rfl,
      by intro j; unfold Mask.valid; simp [hw]⟩

/-! ### Combining and resizing -/

/-- The claim for `combine`: among the first `n` rows, a row is valid afterwards iff it was valid
in both masks. -/
def C40_combine_claim : Prop := ∀ (m other : Mask) (n : Nat), m.WF → other.WF → n ≤ m.count → n ≤ other.count →
  ∃ m', combine m other n = .ok m' ∧ ∀ j, j < n → m'.valid j = (m.valid j && other.valid j)

/-- **C40 fails** for `combine`: if this mask has no buffer and more rows than the other one,
the other's buffer is read beyond its end. -/
theorem C40_combine_fails : ¬ C40_combine_claim := by
  intro h
  obtain ⟨m', h1, _⟩ := h ⟨none, 4⟩ (Mask.new 2) 2 (by intro ws hw; simp at hw)
    (by intro ws hw; simp [Mask.new] at hw; subst hw; simp [freshData, Mask.new]) (by decide) (by decide)
  revert h1
  have : combine ⟨none, 4⟩ (Mask.new 2) 2 = .ub := by decide
  rw [this]
  intro h1; cases h1

/-- **C40, partial**: `combine` is the row-wise conjunction when the other mask has at least as
many rows. Missing: shorter masks (false, see above). -/
theorem C40_combine_partial (m other : Mask) (n : Nat) (hm : m.WF) (ho : other.WF) (hn : n ≤ m.count)
    (hc : m.count ≤ other.count) :
    ∃ m', combine m other n = .ok m' ∧ m'.WF ∧ m'.count = m.count ∧
      ∀ j, j < n → m'.valid j = (m.valid j && other.valid j) := by
  unfold combine
  cases how : other.words with
  | none =>
    refine ⟨m, by cases m.words <;> rfl, hm, rfl, ?_⟩
    intro j _
    have : other.valid j = true := by unfold Mask.valid; simp [how]
    rw [this, Bool.and_true]
  | some o =>
    have hlo := ho o how
    have hov : ∀ j, other.valid j = bitAt o j := by intro j; unfold Mask.valid bitAt; simp only [how]; rfl
    cases hmw : m.words with
    | none =>
      have hd : copyData o m.count = .ok (o.take m.count) := by unfold copyData; rw [if_pos (by omega)]
      simp only [hd, wrap]
      refine ⟨⟨some (o.take m.count), m.count⟩, rfl, ?_, rfl, ?_⟩
      · intro ws h; simp at h; subst h; simp; omega
      · intro j hj
        have : m.valid j = true := by unfold Mask.valid; simp [hmw]
        rw [this, Bool.true_and, valid_some, hov]
        unfold bitAt
        rw [List.getElem?_take, if_pos (by omega)]
    | some ws =>
      have hlm := hm ws hmw
      have hmv : ∀ j, m.valid j = bitAt ws j := by intro j; unfold Mask.valid bitAt; simp only [hmw]; rfl
      have hd : copyData ws m.count = .ok ws := by
        unfold copyData; rw [if_pos (by omega), List.take_of_length_le (by omega)]
      have hen : entryCount n ≤ m.count := by unfold entryCount; omega
      simp only [hd]
      rw [if_pos (by omega)]
      refine ⟨_, rfl, ?_, rfl, ?_⟩
      · intro ws' h; simp only [Option.some.injEq] at h; subst h; simp; omega
      · intro j hj
        have hlt : j / 64 < entryCount n := by unfold entryCount; omega
        have h1 : j / 64 < ws.length := by omega
        have h2 : j / 64 < o.length := by omega
        rw [valid_some, hmv, hov]
        unfold bitAt
        rw [List.getElem?_append_left (by simp; omega), List.getElem?_zipWith,
          List.getElem?_take, if_pos hlt, List.getElem?_take, if_pos hlt,
          List.getElem?_eq_getElem h1, List.getElem?_eq_getElem h2]
        simp only [BitVec.getLsbD_and]

/-- **C40, partial** `resize` to a larger size keeps the state of all old rows, and rows behind
the last old word are valid. Missing: new rows inside the last old word take whatever bits are
there (see the next theorem). -/
theorem C40_resize_partial (m : Mask) (hwf : m.WF) (n : Nat) (hn : m.count < n) :
    ∃ m', resize m n = .ok m' ∧ m'.WF ∧ m'.count = n ∧ (∀ j, j < m.count → m'.valid j = m.valid j) ∧
      (∀ j, 64 * entryCount m.count ≤ j → j < n → m'.valid j = true) ∧
      (∀ j, m.count ≤ j → j < 64 * entryCount m.count → j < n → m'.valid j = m.valid j) := by
  unfold resize
  simp only
  cases hw : m.words with
  | none =>
    refine ⟨⟨some (freshData n), n⟩, rfl, by intro ws h; simp at h; subst h; simp [freshData], rfl, ?_, ?_, ?_⟩
    all_goals
      intro j
      intros
      rw [valid_some, bitAt_fresh _ _ (by omega)]
      try (unfold Mask.valid; simp [hw])
  | some ws =>
    have hl := hwf ws hw
    have he : entryCount m.count ≤ m.count := by unfold entryCount; omega
    have hmv : ∀ j, m.valid j = bitAt ws j := by intro j; unfold Mask.valid bitAt; simp only [hw]; rfl
    simp only
    rw [if_neg (by omega), if_pos (by omega)]
    have hold : ∀ j, j / 64 < entryCount m.count →
        bitAt (ws.take (entryCount m.count) ++ List.replicate (n - entryCount m.count) maxEntry) j = bitAt ws j := by
      intro j hj
      unfold bitAt
      rw [List.getElem?_append_left (by simp; omega), List.getElem?_take, if_pos hj]
    refine ⟨_, rfl, by intro ws' h; simp only [Option.some.injEq] at h; subst h; simp; omega, rfl, ?_, ?_, ?_⟩
    · intro j hj
      rw [valid_some, hmv, hold j (by unfold entryCount; omega)]
    · intro j hj1 hj2
      rw [valid_some]
      unfold bitAt
      have hlt : (ws.take (entryCount m.count)).length = entryCount m.count := by simp; omega
      rw [List.getElem?_append_right (by omega), hlt, List.getElem?_replicate, if_pos (by omega)]
      exact maxEntry_bit _ (Nat.mod_lt _ (by decide))
    · intro j hj1 hj2 hj3
      rw [valid_some, hmv, hold j (by omega)]

/-- The claim for `resize`: old rows keep their state, new rows are valid. -/
def C40_resize_claim : Prop := ∀ (m : Mask) (n : Nat), m.WF → m.count < n →
  ∃ m', resize m n = .ok m' ∧ ∀ j, j < n → m'.valid j = if j < m.count then m.valid j else true

/-- **C40 fails** for `resize` after `combine` with a longer mask: row 1 is null after growing a
one-row mask, although no row of it was ever null. -/
theorem C40_resize_fails : ¬ C40_resize_claim := by
  intro h
  obtain ⟨m', h1, h2⟩ := h ⟨some [~~~(1#64 <<< 1)], 1⟩ 2 (by intro ws hw; simp at hw; subst hw; rfl) (by decide)
  have e : resize ⟨some [~~~(1#64 <<< 1)], 1⟩ 2 = .ok ⟨some [~~~(1#64 <<< 1), maxEntry], 2⟩ := by decide
  rw [e] at h1
  cases h1
  have := h2 1 (by decide)
  revert this
  decide

/-- The mask used above is reachable: it is what `combine` makes of a fresh one-row mask and a
two-row mask whose row 1 is null. -/
theorem C40_resize_counterexample_reachable :
    (setInvalid (Mask.new 2) 1).bind (fun o => combine (Mask.new 1) o 1) = .ok ⟨some [~~~(1#64 <<< 1)], 1⟩ := by
  decide

/-! ### Non-vacuity -/

theorem new_wf (n : Nat) : (Mask.new n).WF := by
  intro ws h; simp [Mask.new] at h; subst h; simp [freshData, Mask.new]

/-- A mask of 130 rows with row 70 null; reading, slicing at an odd offset and counting. -/
example : ∃ m, setInvalid (Mask.new 130) 70 = .ok m ∧ m.WF ∧ m.valid 70 = false ∧ m.valid 69 = true := by
  obtain ⟨m, h1, h2, h3, h4⟩ := C40_set_invalid (Mask.new 130) (new_wf 130) 70 (by decide)
  refine ⟨m, h1, h2, by rw [h4 70 (by decide)]; rfl, ?_⟩
  rw [h4 69 (by decide), if_neg (by decide)]
  exact bitAt_fresh 130 69 (by decide)

example : ∃ m, slice (Mask.new 3) ⟨some [0#64, ~~~(1#64 <<< 2), maxEntry, 5#64], 4⟩ 1 3 = .ok m ∧
    m.valid 0 = false := by
  refine ⟨⟨some [~~~7#64, maxEntry, maxEntry], 3⟩, ?_, ?_⟩ <;> decide

end Verif.Validity
