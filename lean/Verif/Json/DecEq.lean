import Verif.Json.Model
/-!
Equality of documents is decided, so that the kernel can evaluate witnesses.  Not part of the model.
-/
namespace Verif.Json

open Verif.DocVal

mutual
def eqN : (a b : Node) → Decidable (a = b)
  | .leaf v, .leaf w => decidable_of_iff (v = w) (by simp)
  | .obj fs, .obj gs => @decidable_of_iff _ (fs = gs) (by simp) (eqF fs gs)
  | .arr xs, .arr ys => @decidable_of_iff _ (xs = ys) (by simp) (eqL xs ys)
  | .del, .del => .isTrue rfl
  | .leaf _, .obj _ => .isFalse (by simp)
  | .leaf _, .arr _ => .isFalse (by simp)
  | .leaf _, .del => .isFalse (by simp)
  | .obj _, .leaf _ => .isFalse (by simp)
  | .obj _, .arr _ => .isFalse (by simp)
  | .obj _, .del => .isFalse (by simp)
  | .arr _, .leaf _ => .isFalse (by simp)
  | .arr _, .obj _ => .isFalse (by simp)
  | .arr _, .del => .isFalse (by simp)
  | .del, .leaf _ => .isFalse (by simp)
  | .del, .obj _ => .isFalse (by simp)
  | .del, .arr _ => .isFalse (by simp)
def eqL : (as bs : List Node) → Decidable (as = bs)
  | [], [] => .isTrue rfl
  | [], _ :: _ => .isFalse (by simp)
  | _ :: _, [] => .isFalse (by simp)
  | a :: as, b :: bs => match eqN a b, eqL as bs with
    | .isTrue h, .isTrue g => .isTrue (by rw [h, g])
    | .isFalse h, _ => .isFalse (by simp [h])
    | _, .isFalse g => .isFalse (by simp [g])
def eqF : (as bs : List (Bytes × Node)) → Decidable (as = bs)
  | [], [] => .isTrue rfl
  | [], _ :: _ => .isFalse (by simp)
  | _ :: _, [] => .isFalse (by simp)
  | (k, a) :: as, (l, b) :: bs => match decEq k l, eqN a b, eqF as bs with
    | .isTrue e, .isTrue h, .isTrue g => .isTrue (by rw [e, h, g])
    | .isFalse e, _, _ => .isFalse (by simp [e])
    | _, .isFalse h, _ => .isFalse (by simp [h])
    | _, _, .isFalse g => .isFalse (by simp [g])
end

instance : DecidableEq Node := eqN

end Verif.Json
