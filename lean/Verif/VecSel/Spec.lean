import Verif.VecSel.Model
import Verif.Validity.Spec
/-!
# What C116 says

A row of a vector is null or has a value; a comparison with null does not hold.
-/
namespace Verif.VecSel

open Verif Verif.Validity

/-- The value of row `i`, `none` for null: the only row of a constant, the row itself, or the one a dictionary refers to. -/
def Vec.row {T : Type} (v : Vec T) (i : Nat) : Option T :=
  let j := match v.kind with
    | .constant => 0
    | .flat => i
    | .dictionary => v.sel i
  if v.mask.valid j then some (v.data j) else none

/-- Whether the comparison holds in row `i`. -/
def holds {T : Type} (cmp : T → T → Bool) (l r : Vec T) (i : Nat) : Bool :=
  match l.row i, r.row i with
  | some x, some y => cmp x y
  | _, _ => false

/-- The null mask of a vector covers its first `count` rows. -/
def Vec.Fit {T : Type} (v : Vec T) (count : Nat) : Prop :=
  v.mask.WF ∧ match v.kind with
    | .constant => 0 < v.mask.count
    | .flat => count ≤ v.mask.count
    | .dictionary => ∀ i, i < count → v.sel i < v.mask.count

/-- What is asked for: how many rows fit, which, and which do not, in order. -/
def wanted {T : Type} (cmp : T → T → Bool) (l r : Vec T) (count : Nat) : Nat × Out :=
  (((List.range count).filter (holds cmp l r)).length,
   ⟨(List.range count).filter (holds cmp l r), (List.range count).filter fun i => !holds cmp l r i⟩)

/-- **C116**, in full. -/
def C116_compare_claim : Prop :=
  ∀ (T : Type) (cmp : T → T → Bool) (l r : Vec T) (wy wn : Bool) (count : Nat), l.Fit count → r.Fit count →
    select cmp l r wy wn count = .ok (wanted cmp l r count)

end Verif.VecSel
