import Verif.Validity.Props
/-!
Buffer sharing between null masks. `slice` with offset 0 lets the result point to the buffer of
the source (validation.cpp:174-179), and `set` writes into the buffer in place
(validation.cpp:155, 164), so both are modelled here on a heap of buffers.
-/
namespace Verif.Validity
open Verif

/-- All buffers ever allocated; a pointer is a position. -/
abbrev Heap := List (List Word)

/-- `validity_mask_t` as a pointer and a row count, validation.hpp:104-107. -/
structure PMask where
  ptr : Option Nat
  count : Nat
  deriving DecidableEq, Repr

/-- The value a mask has in a heap. -/
def PMask.deref (h : Heap) (p : PMask) : Mask := ⟨p.ptr.bind (h[·]?), p.count⟩

/-- `set`, validation.cpp:148-166, in place; a mask without buffer gets a new one when a row is
marked null. -/
def setP (h : Heap) (p : PMask) (row : Nat) (valid : Bool) : Res (Heap × PMask) :=
  match set (p.deref h) row valid with
  | .ok m =>
    match p.ptr, m.words with
    | some k, some ws => .ok (h.set k ws, p)
    | none, some ws => .ok (h ++ [ws], ⟨some h.length, p.count⟩)
    | _, none => .ok (h, p)
  | .throws => .throws
  | .ub => .ub
  | .diverges => .diverges

/-- `slice`, validation.cpp:168-185. -/
def sliceP (h : Heap) (p other : PMask) (offset count : Nat) : Res (Heap × PMask) :=
  match other.ptr with
  | none => .ok (h, ⟨none, p.count⟩)
  | some _ =>
    if offset = 0 then .ok (h, other)
    else
      match sliceInPlace (Mask.new count) (other.deref h) 0 offset count with
      | .ok m => .ok (h ++ [m.words.getD []], ⟨some h.length, m.count⟩)
      | .throws => .throws
      | .ub => .ub
      | .diverges => .diverges

/-- The claim: changing a row of a slice does not change the rows of the vector it was taken
from. -/
def C40_slice_independent_claim : Prop :=
  ∀ (h h1 h2 : Heap) (p other s s' : PMask) (offset count row : Nat) (v : Bool),
    (∀ k, other.ptr = some k → k < h.length) →
    sliceP h p other offset count = .ok (h1, s) → setP h1 s row v = .ok (h2, s') →
    other.deref h2 = other.deref h

/-- **C40 fails**: after taking a slice at offset 0, marking row 0 of the slice null marks row 0
of the original null. -/
theorem C40_slice_shares_rows_fails : ¬ C40_slice_independent_claim := by
  intro hc
  have := hc [[maxEntry, maxEntry]] [[maxEntry, maxEntry]] [[~~~1#64, maxEntry]] ⟨none, 2⟩ ⟨some 0, 2⟩ ⟨some 0, 2⟩
    ⟨some 0, 2⟩ 0 2 0 false (by intro k hk; simp at hk; subst hk; decide) (by decide) (by decide)
  revert this
  decide

/-- **C40, partial**: slices at a non-zero offset, and slices of masks without a buffer, are
independent of the original. Missing: slices at offset 0 (false, see above). -/
theorem C40_slice_independent_partial (h h1 h2 : Heap) (p other s s' : PMask) (offset count row : Nat) (v : Bool)
    (hin : ∀ k, other.ptr = some k → k < h.length) (hoff : offset ≠ 0 ∨ other.ptr = none)
    (hs : sliceP h p other offset count = .ok (h1, s)) (hset : setP h1 s row v = .ok (h2, s')) :
    other.deref h2 = other.deref h := by
  cases hp : other.ptr with
  | none => simp [PMask.deref, hp]
  | some k =>
    have hk := hin k hp
    unfold sliceP at hs
    rw [hp] at hs
    simp only at hs
    have h0 : offset ≠ 0 := by
      rcases hoff with h | h
      · exact h
      · rw [hp] at h; cases h
    rw [if_neg h0] at hs
    have : h1[k]? = h[k]? ∧ s.ptr = some h.length := by
      cases hsl : sliceInPlace (Mask.new count) (other.deref h) 0 offset count with
      | ok m =>
        rw [hsl] at hs
        simp only [Res.ok.injEq, Prod.mk.injEq] at hs
        obtain ⟨rfl, rfl⟩ := hs
        exact ⟨List.getElem?_append_left hk, rfl⟩
      | throws => rw [hsl] at hs; cases hs
      | ub => rw [hsl] at hs; cases hs
      | diverges => rw [hsl] at hs; cases hs
    have h2k : h2[k]? = h1[k]? := by
      unfold setP at hset
      cases hst : set (s.deref h1) row v with
      | ok m =>
        rw [hst, this.2] at hset
        simp only at hset
        cases hmw : m.words with
        | none =>
          rw [hmw] at hset
          simp only [Res.ok.injEq, Prod.mk.injEq] at hset
          rw [← hset.1]
        | some ws =>
          rw [hmw] at hset
          simp only [Res.ok.injEq, Prod.mk.injEq] at hset
          rw [← hset.1, List.getElem?_set_ne (by omega)]
      | throws => rw [hst] at hset; cases hset
      | ub => rw [hst] at hset; cases hset
      | diverges => rw [hst] at hset; cases hset
    simp [PMask.deref, hp, h2k, this.1]

/-- Non-vacuity: a slice at offset 1 and a change of it. -/
example : ∃ h1 s h2 s', sliceP [[maxEntry, 0#64]] ⟨none, 2⟩ ⟨some 0, 2⟩ 1 1 = .ok (h1, s) ∧
    setP h1 s 0 false = .ok (h2, s') ∧ h2 ≠ h1 :=
  ⟨[[maxEntry, 0#64], [maxEntry]], ⟨some 1, 1⟩, [[maxEntry, 0#64], [~~~1#64]], ⟨some 1, 1⟩, by decide, by decide, by decide⟩

end Verif.Validity
