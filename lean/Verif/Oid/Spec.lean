import Verif.Oid.Model
/-!
What the identifiers of documents promise.
-/
namespace Verif.Oid

/-- An identifier: twelve bytes. -/
def Id (d : Bytes) : Prop := d.length = 12

/-- A digit of base 16, in either case, and its value. -/
def digit (c : UInt8) : Option Nat :=
  if 48 ≤ c.toNat ∧ c.toNat ≤ 57 then some (c.toNat - 48)
  else if 97 ≤ c.toNat ∧ c.toNat ≤ 102 then some (c.toNat - 87)
  else if 65 ≤ c.toNat ∧ c.toNat ≤ 70 then some (c.toNat - 55)
  else none

/-- The number of a text of digits of base 16. -/
def number : Bytes → Option Nat := fun s => s.foldl (fun v c => match v, digit c with
  | some v, some x => some (v * 16 + x)
  | _, _ => none) (some 0)

/-- The number of an identifier: its bytes, the highest first. -/
def value (d : Bytes) : Nat := d.foldl (fun v b => v * 256 + b.toNat) 0

/-- 24 digits of base 16. -/
def Hex24 (s : Bytes) : Prop := s.length = 24 ∧ ∀ c ∈ s, digit c ≠ none

/-- Small letters for capital ones. -/
def lower (s : Bytes) : Bytes := s.map fun c => if 65 ≤ c.toNat ∧ c.toNat ≤ 70 then c + 32 else c

end Verif.Oid
