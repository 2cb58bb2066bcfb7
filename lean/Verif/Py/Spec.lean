import Verif.Py.Model
/-!
What C91 says.
-/
namespace Verif.Py

open Verif.DocVal

/-- What a scalar should read back as: itself, `bytes` as the text of their base64. -/
def Scalar.canon (L : Lib) : Scalar → Scalar
  | .bytes b => .str (L.b64 b)
  | x => x

mutual
/-- What an object should read back as: a `tuple` as a list. -/
def PyObj.canon (L : Lib) : PyObj → PyObj
  | .scalar x => .scalar (x.canon L)
  | .list xs => .list (canonItems L xs)
  | .tuple xs => .list (canonItems L xs)
  | .dict es => .dict (canonFields L es)
def canonItems (L : Lib) : List PyObj → List PyObj
  | [] => []
  | x :: xs => x.canon L :: canonItems L xs
def canonFields (L : Lib) : List (Scalar × PyObj) → List (Scalar × PyObj)
  | [] => []
  | (k, v) :: es => (k, v.canon L) :: canonFields L es
end

mutual
/-- Every scalar in the object, keys included, satisfies `P`; the keys of each `dict` are texts and differ. -/
def PyObj.all (P : Scalar → Prop) : PyObj → Prop
  | .scalar x => P x
  | .list xs => allItems P xs
  | .tuple xs => allItems P xs
  | .dict es => allFields P es ∧ (es.map Prod.fst).Nodup
def allItems (P : Scalar → Prop) : List PyObj → Prop
  | [] => True
  | x :: xs => x.all P ∧ allItems P xs
def allFields (P : Scalar → Prop) : List (Scalar × PyObj) → Prop
  | [] => True
  | (k, v) :: es => (P k ∧ ∃ s, k = .str s) ∧ v.all P ∧ allFields P es
end

/-- The bytes a scalar takes in the buffer of texts. -/
def Scalar.weight (L : Lib) : Scalar → Nat
  | .bytes b => (L.b64 b).length + 5
  | .str s => s.length + 5
  | _ => 0

mutual
/-- The bytes an object takes in the buffer of texts. -/
def PyObj.weight (L : Lib) : PyObj → Nat
  | .scalar x => x.weight L
  | .list xs => weightItems L xs
  | .tuple xs => weightItems L xs
  | .dict es => weightFields L es
def weightItems (L : Lib) : List PyObj → Nat
  | [] => 0
  | x :: xs => x.weight L + weightItems L xs
def weightFields (L : Lib) : List (Scalar × PyObj) → Nat
  | [] => 0
  | (k, v) :: es => k.weight L + v.weight L + weightFields L es
end

/-- A scalar the interface has a case for, and whose text it can hold: `None`, a Boolean, a number, a text below 4 GiB. -/
def Scalar.known (L : Lib) : Scalar → Prop
  | .bytes b => (L.b64 b).length < 2 ^ 32 ∧ L.utf8 (L.b64 b) = true
  | .str s => s.length < 2 ^ 32 ∧ L.utf8 s = true
  | .badStr => False
  | _ => True

/-- Besides, no `None` and no integer beyond 64 bits. -/
def Scalar.plain (L : Lib) (x : Scalar) : Prop :=
  x.known L ∧ x ≠ .none ∧ ∀ v, x = .int v → -2 ^ 63 ≤ v ∧ v < 2 ^ 63

/-- What reading back the document made of a `dict` gives. -/
def back (rtl : Bool) (L : Lib) (es : List (Scalar × PyObj)) : Res PyObj := (toDocument rtl L es).bind (fromDocument L)

end Verif.Py
