import Verif.VecSel.Spec
import Verif.Validity.Props
/-!
# C116: a comparison of vectors finds exactly the rows for which it holds
-/
namespace Verif.VecSel

open Verif Verif.Validity

theorem filter_len (q : Nat → Bool) : ∀ l : List Nat, l.length = (l.filter q).length + (l.filter fun i => !q i).length
  | [] => rfl
  | x :: l => by
    have := filter_len q l
    cases h : q x <;> simp [h] <;> omega

/-- A loop over rows is a filter. -/
theorem scan_eq (p : Nat → Bool) : ∀ (is : List Nat) (o : Out),
    scan p o is = ⟨o.yes ++ is.filter p, o.no ++ is.filter fun i => !p i⟩
  | [], o => by simp [scan]
  | i :: is, o => by
    have ih := scan_eq p is (o.put i (p i))
    simp only [scan, List.foldl_cons] at ih ⊢
    rw [ih]
    cases h : p i <;> simp [Out.put, h]

theorem scan_congr {p q : Nat → Bool} {is : List Nat} (h : ∀ i ∈ is, p i = q i) (o : Out) : scan p o is = scan q o is := by
  rw [scan_eq, scan_eq, List.filter_congr h, List.filter_congr (p := fun i => !p i) (q := fun i => !q i) fun i hi => by rw [h i hi]]

/-- The word of an entry says which of its rows are valid. -/
theorem entry_eq (m : Mask) (h : m.WF) {e : Nat} (he : e < m.count) :
    ∃ w, entry m e = .ok w ∧ ∀ b, b < 64 → w.getLsbD b = m.valid (64 * e + b) := by
  unfold entry
  cases hw : m.words with
  | none => exact ⟨maxEntry, rfl, fun b hb => by rw [maxEntry_bit b hb]; simp [Mask.valid, hw]⟩
  | some ws =>
    have hl := h ws hw
    have hg : ws[e]? = some (ws[e]'(by omega)) := List.getElem?_eq_getElem (by omega)
    refine ⟨ws[e]'(by omega), by simp [hg], fun b hb => ?_⟩
    have hd : (64 * e + b) / 64 = e := by omega
    have hm : (64 * e + b) % 64 = b := by omega
    simp only [Mask.valid, hw, hd, hg, hm]

/-- A bit looked at with a shifted one. -/
theorem bit_eq (w : Word) (b : Nat) (hb : b < 64) : decide (w &&& (1#64 <<< b) ≠ 0#64) = w.getLsbD b := by
  have := rowIsValid_spec ⟨some [w], 1⟩ (by intro ws h; cases h; rfl) b (by simp; omega)
  have h0 : b / 64 = 0 := by omega
  have hm : b % 64 = b := by omega
  simpa [rowIsValid, Mask.valid, h0, hm] using this

/-- The loop over the entries of a mask. -/
theorem flatLoop_eq (p : Nat → Bool) (m : Mask) (h : m.WF) (count : Nat) (hc : count ≤ m.count) :
    ∀ (k e base : Nat) (o : Out), e + k = entryCount count → (0 < k → base = 64 * e) → (k = 0 → base = count) →
      flatLoop p m count k e base o =
        .ok (scan (fun i => m.valid i && p i) o (List.range' base (count - base)))
  | 0, e, base, o, _, _, hb => by rw [hb rfl]; simp [flatLoop, scan]
  | k + 1, e, base, o, he, hb, _ => by
    have hb := hb (by omega)
    subst hb
    have hec : entryCount count = (count + 63) / 64 := rfl
    have h64 : 64 * e < count := by omega
    obtain ⟨w, h1, h2⟩ := entry_eq m h (e := e) (by omega)
    have hs : ∀ i ∈ List.range' (64 * e) (min (64 * e + 64) count - 64 * e), w.getLsbD (i - 64 * e) = m.valid i := by
      intro i hi
      rw [List.mem_range'_1] at hi
      rw [h2 _ (by omega)]
      congr 1; omega
    have hscan : (if w = maxEntry then scan p o (List.range' (64 * e) (min (64 * e + 64) count - 64 * e))
        else if w = 0#64 then scan (fun _ => false) o (List.range' (64 * e) (min (64 * e + 64) count - 64 * e))
        else scan (fun i => decide (w &&& (1#64 <<< (i - 64 * e)) ≠ 0#64) && p i) o
          (List.range' (64 * e) (min (64 * e + 64) count - 64 * e))) =
        scan (fun i => m.valid i && p i) o (List.range' (64 * e) (min (64 * e + 64) count - 64 * e)) := by
      by_cases hw : w = maxEntry
      · rw [if_pos hw]
        refine scan_congr (fun i hi => ?_) o
        have hv := hs i hi
        rw [List.mem_range'_1] at hi
        rw [hw, maxEntry_bit _ (by omega)] at hv
        rw [← hv]; simp
      · rw [if_neg hw]
        by_cases hz : w = 0#64
        · rw [if_pos hz]
          refine scan_congr (fun i hi => ?_) o
          have hv := hs i hi
          rw [hz] at hv
          rw [← hv]; simp
        · rw [if_neg hz]
          refine scan_congr (fun i hi => ?_) o
          have hv := hs i hi
          rw [List.mem_range'_1] at hi
          rw [bit_eq w _ (by omega), hv]
    rw [flatLoop, h1]
    simp only [Res.bind]
    rw [hscan, flatLoop_eq p m h count hc k (e + 1) (min (64 * e + 64) count) _ (by omega) (by intro hk; omega) (by intro hk; omega)]
    congr 1
    rw [scan, scan, scan, ← List.foldl_append]
    congr 1
    have e1 : min (64 * e + 64) count = 64 * e + 1 * (min (64 * e + 64) count - 64 * e) := by omega
    have e2 : count - 64 * e = (min (64 * e + 64) count - 64 * e) + (count - min (64 * e + 64) count) := by omega
    rw [e2, ← List.range'_append, ← e1]

/-- All of it, with what is given back. -/
theorem flat_all (p : Nat → Bool) (m : Mask) (h : m.WF) (count : Nat) (hc : count ≤ m.count) (wy wn : Bool) (hw : wy = true ∨ wn = true)
    (q : Nat → Bool) (hq : ∀ i, i < count → (m.valid i && p i) = q i) :
    (flatLoop p m count (entryCount count) 0 0 ⟨[], []⟩).bind (report wy wn count) =
      .ok (((List.range count).filter q).length, ⟨(List.range count).filter q, (List.range count).filter fun i => !q i⟩) := by
  rw [flatLoop_eq p m h count hc _ 0 0 _ (by omega) (by intro; rfl) (by intro hk; simp [entryCount] at hk; omega)]
  simp only [Res.bind, Nat.sub_zero, ← List.range_eq_range']
  rw [scan_congr (q := q) (fun i hi => hq i (List.mem_range.mp hi)), scan_eq]
  simp only [List.nil_append, report]
  have hlen : count - ((List.range count).filter fun i => !q i).length = ((List.range count).filter q).length := by
    have := filter_len q (List.range count)
    rw [List.length_range] at this
    omega
  cases wy
  · have : wn = true := by simpa using hw
    simp [this, hlen]
  · simp

theorem row_some {T : Type} (v : Vec T) (i : Nat) :
    v.row i = if v.mask.valid (v.index i) then some (v.data (v.index i)) else none := rfl

theorem holds_eq {T : Type} (cmp : T → T → Bool) (l r : Vec T) (i : Nat) :
    holds cmp l r i = (l.mask.valid (l.index i) && (r.mask.valid (r.index i) && cmp (l.data (l.index i)) (r.data (r.index i)))) := by
  rw [holds, row_some, row_some]
  cases l.mask.valid (l.index i) <;> cases r.mask.valid (r.index i) <;> simp

theorem all_wanted {T : Type} (cmp : T → T → Bool) (l r : Vec T) (count : Nat) (b : Bool)
    (h : ∀ i, i < count → holds cmp l r i = b) : all count b = wanted cmp l r count := by
  have hf : (List.range count).filter (holds cmp l r) = if b then List.range count else [] := by
    cases b
    · simpa using h
    · simpa using h
  have hn : (List.range count).filter (fun i => !holds cmp l r i) = if b then [] else List.range count := by
    cases b
    · simpa using h
    · simpa using h
  rw [wanted, hf, hn]
  cases b <;> simp [all]

theorem Vec.Fit.index {T : Type} {v : Vec T} {count : Nat} (h : v.Fit count) {i : Nat} (hi : i < count) :
    v.index i < v.mask.count := by
  unfold Vec.Fit at h
  unfold Vec.index
  have h2 := h.2
  cases hk : v.kind <;> simp only [hk] at h2 ⊢
  · omega
  · exact h2
  · exact h2 i hi

theorem genericRow_eq {T : Type} (cmp : T → T → Bool) (l r : Vec T) (count i : Nat) (hi : i < count) (hl : l.Fit count) (hr : r.Fit count) :
    genericRow cmp l r (l.mask.words.isNone && r.mask.words.isNone) i = .ok (holds cmp l r i) := by
  rw [holds_eq]
  unfold genericRow
  by_cases hn : (l.mask.words.isNone && r.mask.words.isNone) = true
  · rw [if_pos hn]
    simp only [Bool.and_eq_true, Option.isNone_iff_eq_none] at hn
    simp [Mask.valid, hn.1, hn.2]
  · rw [if_neg hn, rowIsValid_spec l.mask hl.1 _ (div_lt_of_lt (hl.index hi)), rowIsValid_spec r.mask hr.1 _ (div_lt_of_lt (hr.index hi))]
    simp only [Res.bind]
    cases l.mask.valid (l.index i) <;> cases r.mask.valid (r.index i) <;> simp

theorem genericLoop_eq {T : Type} (cmp : T → T → Bool) (l r : Vec T) (count : Nat) (hl : l.Fit count) (hr : r.Fit count) :
    ∀ (n i : Nat) (o : Out), i + n = count →
      genericLoop cmp l r (l.mask.words.isNone && r.mask.words.isNone) n i o = .ok (scan (holds cmp l r) o (List.range' i n))
  | 0, _, _, _ => rfl
  | n + 1, i, o, h => by
    rw [genericLoop, genericRow_eq cmp l r count i (by omega) hl hr]
    simp only [Res.bind]
    rw [genericLoop_eq cmp l r count hl hr n (i + 1) _ (by omega)]
    rfl

theorem copy_wf (m : Mask) (h : m.WF) : m.copy = .ok m := by
  cases m with
  | mk ws c =>
    cases ws with
    | none => rfl
    | some ws =>
      have := h ws rfl
      simp only at this
      subst this
      simp [Mask.copy, copyData]

/-- **C116**: if at least one selection is asked for, a comparison of two vectors of any kind gives back how many rows fit,
those rows and the others, each in order.
Partial: of two flat vectors the null mask of the right one must not be the shorter one, see `C116_shorter_is_ub`. -/
theorem C116_compare_partial {T : Type} (cmp : T → T → Bool) (l r : Vec T) (wy wn : Bool) (count : Nat) (hl : l.Fit count) (hr : r.Fit count)
    (hw : wy = true ∨ wn = true) (hm : l.kind = .flat → r.kind = .flat → l.mask.count ≤ r.mask.count) :
    select cmp l r wy wn count = .ok (wanted cmp l r count) := by
  have hgen : selectGeneric cmp l r wy wn count = .ok (wanted cmp l r count) := by
    rw [selectGeneric, genericLoop_eq cmp l r count hl hr count 0 _ (by omega), ← List.range_eq_range', scan_eq]
    simp only [Res.bind, List.nil_append, report, wanted]
    have hlen : count - ((List.range count).filter fun i => !holds cmp l r i).length = ((List.range count).filter (holds cmp l r)).length := by
      have := filter_len (holds cmp l r) (List.range count)
      rw [List.length_range] at this
      omega
    cases wy
    · have : wn = true := by simpa using hw
      simp [this, hlen]
    · simp
  unfold select
  cases hlk : l.kind <;> cases hrk : r.kind <;> simp only
  · -- flat, flat
    have hl2 := hl.2; have hr2 := hr.2
    simp only [hlk, hrk] at hl2 hr2
    obtain ⟨m, h1, h2, h3, h4⟩ := C40_combine_partial l.mask r.mask count hl.1 hr.1 hl2 (hm hlk hrk)
    rw [selectFlat, copy_wf _ hl.1]
    simp only [Res.bind, h1]
    refine flat_all _ m h2 count (by omega) wy wn hw _ fun i hi => ?_
    rw [holds_eq, h4 i hi]
    simp only [Vec.index, hlk, hrk, Bool.and_assoc]
  · -- flat, constant
    have hl2 := hl.2; have hr2 := hr.2
    simp only [hlk, hrk] at hl2 hr2
    rw [selectRight, rowIsValid_spec r.mask hr.1 0 (by omega)]
    simp only [Res.bind]
    cases hv : r.mask.valid 0
    · simp only [Bool.not_false, if_true]
      rw [all_wanted]
      intro i _
      rw [holds_eq]; simp [Vec.index, hrk, hv]
    · simp only [Bool.not_true, Bool.false_eq_true, if_false]
      refine flat_all _ l.mask hl.1 count hl2 wy wn hw _ fun i hi => ?_
      rw [holds_eq]; simp [Vec.index, hlk, hrk, hv]
  · exact hgen
  · -- constant, flat
    have hl2 := hl.2; have hr2 := hr.2
    simp only [hlk, hrk] at hl2 hr2
    rw [selectLeft, rowIsValid_spec l.mask hl.1 0 (by omega)]
    simp only [Res.bind]
    cases hv : l.mask.valid 0
    · simp only [Bool.not_false, if_true]
      rw [all_wanted]
      intro i _
      rw [holds_eq]; simp [Vec.index, hlk, hv]
    · simp only [Bool.not_true, Bool.false_eq_true, if_false]
      refine flat_all _ r.mask hr.1 count hr2 wy wn hw _ fun i hi => ?_
      rw [holds_eq]; simp [Vec.index, hlk, hrk, hv]
  · -- constant, constant
    have hl2 := hl.2; have hr2 := hr.2
    simp only [hlk, hrk] at hl2 hr2
    rw [selectConst, rowIsValid_spec l.mask hl.1 0 (by omega), rowIsValid_spec r.mask hr.1 0 (by omega)]
    simp only [Res.bind]
    cases hv : l.mask.valid 0
    · simp only [Bool.not_false, if_true]
      rw [all_wanted]
      intro i _
      rw [holds_eq]; simp [Vec.index, hlk, hv]
    · simp only [Bool.not_true, Bool.false_eq_true, if_false]
      cases hv' : r.mask.valid 0
      · simp only [Bool.not_false, if_true]
        rw [all_wanted]
        intro i _
        rw [holds_eq]; simp [Vec.index, hrk, hv']
      · simp only [Bool.not_true, Bool.false_eq_true, if_false]
        rw [all_wanted]
        intro i _
        rw [holds_eq]; simp [Vec.index, hlk, hrk, hv, hv']
  · exact hgen
  · exact hgen
  · exact hgen
  · exact hgen

/-- A flat vector of the numbers 0, 1, … in which row 3 is null. -/
def nums : Vec Nat := ⟨.flat, id, ⟨some (List.replicate 100 maxEntry |>.set 0 (~~~ (1#64 <<< 3))), 100⟩, id⟩
/-- The constant 67. -/
def c67 : Vec Nat := ⟨.constant, fun _ => 67, Mask.new 1, id⟩

theorem nums_fit : nums.Fit 70 := ⟨by intro ws h; cases h; simp [nums], (by decide : 70 ≤ 100)⟩
theorem c67_fit : c67.Fit 70 := ⟨by intro ws h; cases h; simp [Mask.new, freshData, c67], (by decide : 0 < 1)⟩

example : (wanted (fun x y => decide (y ≤ x)) nums c67 70).1 = 3 ∧
    select (fun x y => decide (y ≤ x)) nums c67 true true 70 = .ok (wanted (fun x y => decide (y ≤ x)) nums c67 70) :=
  ⟨by decide +kernel, C116_compare_partial _ _ _ _ _ _ nums_fit c67_fit (.inl rfl) (by intro _ h; cases h)⟩

/-- **C116**: every row is in exactly one of the two selections. -/
theorem C116_each {T : Type} (cmp : T → T → Bool) (l r : Vec T) (wy wn : Bool) (count : Nat) (hl : l.Fit count) (hr : r.Fit count)
    (hw : wy = true ∨ wn = true) (hm : l.kind = .flat → r.kind = .flat → l.mask.count ≤ r.mask.count) :
    ∃ n o, select cmp l r wy wn count = .ok (n, o) ∧ n = o.yes.length ∧ n + o.no.length = count ∧
      (∀ i, i ∈ o.yes ↔ i < count ∧ ∃ x y, l.row i = some x ∧ r.row i = some y ∧ cmp x y = true) ∧
      ∀ i, i ∈ o.no ↔ i < count ∧ i ∉ o.yes := by
  refine ⟨_, _, C116_compare_partial cmp l r wy wn count hl hr hw hm, rfl, ?_, fun i => ?_, fun i => ?_⟩
  · have := filter_len (holds cmp l r) (List.range count)
    rw [List.length_range] at this
    exact this.symm
  · simp only [List.mem_filter, List.mem_range]
    refine and_congr_right fun _ => ?_
    unfold holds
    cases hx : l.row i <;> cases hy : r.row i <;> simp
  · simp only [List.mem_filter, List.mem_range, Bool.not_eq_true']
    constructor
    · rintro ⟨h1, h2⟩
      exact ⟨h1, fun h => by rw [h.2] at h2; cases h2⟩
    · rintro ⟨h1, h2⟩
      refine ⟨h1, ?_⟩
      cases h : holds cmp l r i with
      | true => exact absurd ⟨h1, h⟩ h2
      | false => rfl

example : ∃ n o, select (fun x y => decide (y ≤ x)) nums c67 false true 70 = .ok (n, o) ∧ n = o.yes.length ∧ n + o.no.length = 70 ∧
    (∀ i, i ∈ o.yes ↔ i < 70 ∧ ∃ x y, nums.row i = some x ∧ c67.row i = some y ∧ decide (y ≤ x) = true) ∧
    ∀ i, i ∈ o.no ↔ i < 70 ∧ i ∉ o.yes := C116_each _ _ _ _ _ _ nums_fit c67_fit (.inr rfl) (by intro _ h; cases h)

/-- **C116 fails**: two flat vectors of which the left one has no nulls and room for more rows: its mask is made from more
words than the other one has. -/
theorem C116_shorter_is_ub : select (fun x y : Nat => x == y) ⟨.flat, id, ⟨none, 4⟩, id⟩ ⟨.flat, id, Mask.new 2, id⟩ true true 2 = .ub := by
  decide +kernel

/-- **C116 fails**: if neither selection is asked for, the number of rows alone cannot be had. -/
theorem C116_neither_is_ub : select (fun x y : Nat => x == y) nums c67 false false 70 = .ub := by decide +kernel

/-- **C116 fails** in full. -/
theorem C116_fails : ¬ C116_compare_claim := by
  intro h
  have := h Nat (fun x y => x == y) nums c67 false false 70 nums_fit c67_fit
  rw [C116_neither_is_ub] at this
  cases this

end Verif.VecSel
