import Verif.UVec.Model
/-!
# What C119 says

A vector is a list of elements, each with the bytes of the value last written to it, or with nothing yet.
-/
namespace Verif.UVec

open Verif

/-- What an operation does to the list. -/
def after {T : Type} (enc : T → List UInt8) (l : List (Option (List UInt8))) : Op T → List (Option (List UInt8))
  | .reserve _ => l
  | .resize n => l.take n ++ List.replicate (n - l.length) none
  | .shrink => l
  | .set i v => l.set i (some (enc v))

/-- What a sequence of operations does. -/
def afterAll {T : Type} (enc : T → List UInt8) (l : List (Option (List UInt8))) : List (Op T) → List (Option (List UInt8))
  | [] => l
  | o :: os => afterAll enc (after enc l o) os

/-- Elements are only written where they are. -/
def Within {T : Type} (enc : T → List UInt8) : List (Option (List UInt8)) → List (Op T) → Prop
  | _, [] => True
  | l, o :: os => (match o with
      | .set i _ => i < l.length
      | _ => True) ∧ Within enc (after enc l o) os

/-- A vector shows a list: as many elements, and the value of each that was written. -/
def Shows {T : Type} (e : Elem T) (b : Buf) (l : List (Option (List UInt8))) : Prop :=
  b.count e.s = l.length ∧ ∀ (i : Nat) (bs : List UInt8), l[i]? = some (some bs) → get e b i = .ok (bs.map some)

/-- **C119**, in full: values of `s` bytes. -/
def C119_vector_claim : Prop :=
  ∀ (T : Type) (e : Elem T) (n : Nat) (os : List (Op T)), 0 < e.s → (∀ v, (e.enc v).length = e.s) →
    Within e.enc (List.replicate n none) os →
    ∃ b, run e (make e n) os = .ok b ∧ Shows e b (afterAll e.enc (List.replicate n none) os)

end Verif.UVec
