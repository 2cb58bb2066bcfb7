import Verif.VecCache.Model
/-!
# What C118 says

Row `i` of a slice is the row of the column that the caller's index `i` names, at the time of slicing; other columns keep their rows.
-/
namespace Verif.VecCache

open Verif

/-- The row that index `i` of an indexing names; without an array that is row `i`. -/
def named (h : Heap) : Ptr → Nat → Option Nat
  | none, i => some i
  | some a, i => (h a)[i]?

/-- What a column shows in row `i`, if it has such a row. -/
def Column.shows {V : Type} (c : Column V) (h : Heap) (i : Nat) : Option V :=
  match c.sel with
  | .flat => some (c.base i)
  | .constant => some (c.base 0)
  | .dict p => (named h p i).map c.base

/-- What row `i` of the slice of a column is to show. -/
def wanted {V : Type} (c : Column V) (h : Heap) (idx : Ptr) (i : Nat) : Option V := (named h idx i).bind (c.shows h)

/-- All rows asked for are there. -/
def InRange {V : Type} (c : Column V) (h : Heap) (idx : Ptr) (count : Nat) : Prop := ∀ i, i < count → (wanted c h idx i).isSome

/-- **C118**, in full: the slice has the rows asked for, and keeps them if the caller goes on to use their indexing. -/
def C118_slice_claim : Prop :=
  ∀ (V : Type) (alloc : List Nat → Nat), (∀ l, alloc l ∉ l) →
    ∀ (others cols : List (Column V)) (a count : Nat) (h : Heap), (∀ c ∈ cols, InRange c h (some a) count) →
    ∃ h' cols', sliceChunk alloc others cols (some a) count h = .ok (h', cols') ∧ cols'.length = cols.length ∧
      ∀ (l : List Nat) (k : Nat) (hk : k < cols.length) (hk' : k < cols'.length) (i : Nat) (v : V), i < count →
        wanted cols[k] h (some a) i = some v → cols'[k].row (put h' a l) i = .ok v

end Verif.VecCache
