import Verif.DocPack.Model
import Verif.DocVal.TapeProps
/-!
What it means that a document comes back.
-/
namespace Verif.DocPack

open Verif.Num Verif.PhysKey Verif.DocVal Verif.Json

/-- The number a value stands for (in units of 2^-1074; `one` is 1). -/
def num : V → Option FVal
  | .int _ v => some (.fin (v * one))
  | .big v => some (.fin (v * one))
  | .float b => some (decode32 b)
  | .double b => some (decode64 b)
  | _ => none

/-- The same value, or the same number in another type. -/
def SameV (a b : V) : Prop := a = b ∨ ∃ x, num a = some x ∧ num b = some x

/-- The same thing at a place of two documents. -/
inductive Alike : Option Shape → Option Shape → Prop where
  | nothing : Alike none none
  | object : Alike (some .object) (some .object)
  | array : Alike (some .array) (some .array)
  | deleted : Alike (some .deleted) (some .deleted)
  | value (v w : V) (h : SameV v w) : Alike (some (.value v)) (some (.value w))

/-- The values the C++ types hold, and the documents of them: objects have no name twice; texts and containers have less
than 2^31 elements. -/
inductive Valid : Node → Prop where
  | leaf (v : V) (hv : v.valid) (hs : ∀ s, v = .str s → s.length < 2 ^ 31) : Valid (.leaf v)
  | arr (xs : List Node) (hl : xs.length < 2 ^ 31) (h : ∀ x ∈ xs, Valid x) : Valid (.arr xs)
  | obj (fs : List (Bytes × Node)) (hn : (fs.map Prod.fst).Nodup) (hl : fs.length < 2 ^ 31)
      (hk : ∀ p ∈ fs, p.1.length < 2 ^ 31) (h : ∀ p ∈ fs, Valid p.2) : Valid (.obj fs)

/-- Every value of the document satisfies `P`. -/
inductive Every (P : V → Prop) : Node → Prop where
  | leaf (v : V) (h : P v) : Every P (.leaf v)
  | arr (xs : List Node) (h : ∀ x ∈ xs, Every P x) : Every P (.arr xs)
  | obj (fs : List (Bytes × Node)) (h : ∀ p ∈ fs, Every P p.2) : Every P (.obj fs)

/-- The values that come back as the same number: no 128-bit number and no integer of 2^56 or more; if the library packs
doubles that are integers as integers, the same holds for those below 2^64. -/
def Carried (shrink : Bool) : V → Prop
  | .int _ v => v < 2 ^ 56
  | .float b => shrink = true → ∀ n : Int, decode32 b = .fin (n * one) → n < 2 ^ 56 ∨ 2 ^ 64 ≤ n
  | .double b => shrink = true → ∀ n : Int, decode64 b = .fin (n * one) → n < 2 ^ 56 ∨ 2 ^ 64 ≤ n
  | .big _ => False
  | .other _ => False
  | _ => True

/-- The values that come back as they were: besides, no integer of less than 64 bits, no signed one that is not negative,
no float, and no double that is an integer if the library packs those as integers. -/
def Kept (shrink : Bool) : V → Prop
  | .int t v => (t = .u64 ∧ v < 2 ^ 56) ∨ (t = .i64 ∧ v < 0)
  | .float _ => False
  | .double b => shrink = true → ∀ n : Int, decode64 b = .fin (n * one) → n < -2 ^ 63 ∨ 2 ^ 64 ≤ n
  | .big _ => False
  | .other _ => False
  | _ => True

end Verif.DocPack
