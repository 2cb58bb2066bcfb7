import Verif.Py.FindModel
import Verif.Py.Spec
import Verif.Query.Spec
/-!
What C92 says: conditions as their users read them.
-/
namespace Verif.Py

open Verif.DocVal

/-- The operators of a field. -/
inductive Op where
  | cmp (c : Query.Cmp)
  | regex
deriving DecidableEq, Repr

/-- `$eq`, `$ne`, `$gt`, `$gte`, `$lt`, `$lte`, `$regex`. -/
def Op.name : Op → Bytes
  | .cmp .eq => [36, 101, 113]
  | .cmp .ne => [36, 110, 101]
  | .cmp .gt => [36, 103, 116]
  | .cmp .gte => [36, 103, 116, 101]
  | .cmp .lt => [36, 108, 116]
  | .cmp .lte => [36, 108, 116, 101]
  | .regex => [36, 114, 101, 103, 101, 120]

mutual
/-- An entry of a condition: `k: x`, `k: {op: x, ...}`, `"$and": [...]`, `"$or": [...]`, `"$not": {...}`. -/
inductive Cond where
  | field (k : Bytes) (x : Scalar)
  | ops (k : Bytes) (os : List (Op × Scalar))
  | and (ds : List Dict)
  | or (ds : List Dict)
  | not (d : Dict)
/-- A condition: all its entries hold. -/
inductive Dict where
  | mk (es : List Cond)
end

/-- The entries of a condition. -/
def Dict.es : Dict → List Cond
  | .mk es => es

mutual
/-- The entry of the Python `dict` for an entry. -/
def Cond.py : Cond → Scalar × PyObj
  | .field k x => (.str k, .scalar x)
  | .ops k os => (.str k, .dict (os.map fun o => (.str o.1.name, .scalar o.2)))
  | .and ds => (.str kAnd, .list (dictsPy ds))
  | .or ds => (.str kOr, .list (dictsPy ds))
  | .not d => (.str kNot, d.py)
def Dict.py : Dict → PyObj
  | .mk es => .dict (entriesPy es)
def entriesPy : List Cond → List (Scalar × PyObj)
  | [] => []
  | e :: es => e.py :: entriesPy es
def dictsPy : List Dict → List PyObj
  | [] => []
  | d :: ds => d.py :: dictsPy ds
end

/-- The value a Python scalar stands for in a comparison. -/
def Scalar.value (L : Lib) : Scalar → Option V
  | .bool b => some (.bool b)
  | .int v => some (.int .i64 v)
  | .float b => some (.double b)
  | .bytes b => some (.str (L.b64 b))
  | .str s => some (.str s)
  | _ => Option.none

/-- The field of a document compared with a value (C22, C32), or searched for a pattern. -/
def test (L : Lib) (rx : Bytes → Bytes → Res Bool) (d : Query.Doc) (k : Bytes) (x : Scalar) : Op → Res Bool
  | .cmp c => (compareTo (d.get k) (x.value L)).bind fun o => .ok (c.ok o)
  | .regex => match d.get k with
    | .scalar (.str s) => rx s (Query.asText (x.value L))
    | _ => .ok false

mutual
/-- A document satisfies an entry; `T d k x op` says that the field `k` compares with `x` as the operator says. -/
def Cond.sat (T : Bytes → Scalar → Op → Prop) : Cond → Prop
  | .field k x => T k x (.cmp .eq)
  | .ops k os => ∀ o ∈ os, T k o.2 o.1
  | .and ds => allSat T ds
  | .or ds => someSat T ds
  | .not d => ¬ d.sat T
def Dict.sat (T : Bytes → Scalar → Op → Prop) : Dict → Prop
  | .mk es => entriesSat T es
def entriesSat (T : Bytes → Scalar → Op → Prop) : List Cond → Prop
  | [] => True
  | e :: es => e.sat T ∧ entriesSat T es
def allSat (T : Bytes → Scalar → Op → Prop) : List Dict → Prop
  | [] => True
  | d :: ds => d.sat T ∧ allSat T ds
def someSat (T : Bytes → Scalar → Op → Prop) : List Dict → Prop
  | [] => False
  | d :: ds => d.sat T ∨ someSat T ds
end

mutual
/-- Every comparison of the condition satisfies `Q`. -/
def Cond.each (Q : Bytes → Scalar → Op → Prop) : Cond → Prop
  | .field k x => Q k x (.cmp .eq)
  | .ops k os => ∀ o ∈ os, Q k o.2 o.1
  | .and ds => eachDicts Q ds
  | .or ds => eachDicts Q ds
  | .not d => d.each Q
def Dict.each (Q : Bytes → Scalar → Op → Prop) : Dict → Prop
  | .mk es => eachEntries Q es
def eachEntries (Q : Bytes → Scalar → Op → Prop) : List Cond → Prop
  | [] => True
  | e :: es => e.each Q ∧ eachEntries Q es
def eachDicts (Q : Bytes → Scalar → Op → Prop) : List Dict → Prop
  | [] => True
  | d :: ds => d.each Q ∧ eachDicts Q ds
end

/-- The name of a field that is not taken for an operator: it is not empty, without its first character it is none of
the words `invalid`, `eq`, `ne`, `gt`, `lt`, `gte`, `lte`, `regex`, `any`, `all`, `union_and`, `union_or`, `union_not`,
`all_true`, `all_false`, and it is not `$and`, `$or` or `$not`. -/
def Ordinary (k : Bytes) : Prop := k ≠ [] ∧ k.drop 1 ∉ cNames.map Prod.fst ∧ k ≠ kAnd ∧ k ≠ kOr ∧ k ≠ kNot

mutual
/-- The field names are ordinary. -/
def Cond.named : Cond → Prop
  | .field k _ => Ordinary k
  | .ops k _ => Ordinary k
  | .and ds => namedDicts ds
  | .or ds => namedDicts ds
  | .not d => d.named
def Dict.named : Dict → Prop
  | .mk es => namedEntries es
def namedEntries : List Cond → Prop
  | [] => True
  | e :: es => e.named ∧ namedEntries es
def namedDicts : List Dict → Prop
  | [] => True
  | d :: ds => d.named ∧ namedDicts ds
end

/-- The entry is one comparison or one `$and`, `$or` or `$not`. -/
def Cond.one : Cond → Prop
  | .ops _ os => os.length = 1
  | _ => True

mutual
/-- Every alternative of an `$or` and every negated condition has one entry, and that is one comparison or one `$and`,
`$or` or `$not`. -/
def Cond.shaped : Cond → Prop
  | .field _ _ => True
  | .ops _ _ => True
  | .and ds => shapedDicts ds
  | .or ds => singleDicts ds
  | .not d => d.single
def Dict.shaped : Dict → Prop
  | .mk es => shapedEntries es
def Dict.single : Dict → Prop
  | .mk [e] => e.one ∧ e.shaped
  | _ => False
def shapedEntries : List Cond → Prop
  | [] => True
  | e :: es => e.shaped ∧ shapedEntries es
def shapedDicts : List Dict → Prop
  | [] => True
  | d :: ds => d.shaped ∧ shapedDicts ds
def singleDicts : List Dict → Prop
  | [] => True
  | d :: ds => d.single ∧ singleDicts ds
end

/-- At the root, `$or` is alone and there is no `$not`. -/
def rootShaped : List Cond → Prop
  | [.or _] => True
  | es => ∀ e ∈ es, (∀ ds, e ≠ .or ds) ∧ ∀ d, e ≠ .not d

mutual
/-- The number of values in a condition. -/
def Cond.size : Cond → Nat
  | .field _ _ => 1
  | .ops _ os => os.length
  | .and ds => sizeDicts ds
  | .or ds => sizeDicts ds
  | .not d => d.size
def Dict.size : Dict → Nat
  | .mk es => sizeEntries es
def sizeEntries : List Cond → Nat
  | [] => 0
  | e :: es => e.size + sizeEntries es
def sizeDicts : List Dict → Nat
  | [] => 0
  | d :: ds => d.size + sizeDicts ds
end

/-- The interface can read the values: texts with an encoding, integers of 64 bits, no `None`. -/
def readable : Bytes → Scalar → Op → Prop := fun _ x _ => x ≠ .none ∧ x ≠ .badStr ∧ ∀ v, x = .int v → -2 ^ 63 ≤ v ∧ v < 2 ^ 63

/-- The comparisons with a document are defined. -/
def decided (L : Lib) (rx : Bytes → Bytes → Res Bool) (d : Query.Doc) : Bytes → Scalar → Op → Prop :=
  fun k x op => ∃ b, test L rx d k x op = .ok b

/-- The comparison holds. -/
def truth (L : Lib) (rx : Bytes → Bytes → Res Bool) (d : Query.Doc) : Bytes → Scalar → Op → Prop :=
  fun k x op => test L rx d k x op = .ok true

end Verif.Py
