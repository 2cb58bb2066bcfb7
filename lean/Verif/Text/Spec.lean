import Verif.Text.Model
import Verif.DocPack.Spec
/-!
What is expected of documents written as text and read again.  That two documents are the same is said as for
MessagePack (`Verif.DocPack.Spec`): the same things at all places, numbers by their value.
-/
namespace Verif.Text

open Verif.Num Verif.PhysKey Verif.DocVal Verif.Json Verif.DocPack

/-- A number text that stands for the number `x` (in units of 2^-1074; `one` is 1): an integer that is `x`, or anything else
the nearest `double` of which is `x`. -/
def Means (lib : Lib) (t : Bytes) (x : FVal) : Prop :=
  isNumber t = true ∧
    match intOf t with
    | some n => -2 ^ 63 ≤ n ∧ n < 2 ^ 63 ∧ x = .fin (n * one)
    | none => decode64 (lib.double t) = x

/-- The library keeps its promises: 17 digits determine a `double`, and ASCII is UTF-8. -/
structure Honest (lib : Lib) : Prop where
  exact : ∀ b z, decode64 b = .fin z → Means lib (lib.fmt64 b) (.fin z)
  ascii : ∀ s : Bytes, (∀ c ∈ s, c < 128) → lib.utf8 s = true

/-- A text that looks in JSON as it is: UTF-8 without quotes, backslashes and control characters. -/
def Plain (lib : Lib) (s : Bytes) : Prop := lib.utf8 s = true ∧ ∀ c ∈ s, 32 ≤ c ∧ c ≠ 34 ∧ c ≠ 92

/-- The values that come back: integers of up to 32 bits, 64-bit ones below 2^63 if the conversion for 32 bits prints them all the same;
finite doubles with up to 23 characters; floats whose text stands for the same number; plain texts. -/
def Shown (lib : Lib) : V → Prop
  | .na => True
  | .bool _ => True
  | .int t v => t.bits = 64 → lib.wide t.signed v = .ok v ∧ v < 2 ^ 63
  | .big _ => False
  | .float b => (lib.fmt32 b).length ≤ 15 ∧ Means lib (lib.fmt32 b) (decode32 b)
  | .double b => (lib.fmt64 b).length ≤ 23 ∧ ∃ z, decode64 b = .fin z
  | .str s => Plain lib s
  | .other _ => False

/-- The names of the fields are plain. -/
inductive Names (lib : Lib) : Node → Prop where
  | leaf (v) : Names lib (.leaf v)
  | arr (xs) (h : ∀ x ∈ xs, Names lib x) : Names lib (.arr xs)
  | obj (fs : List (Bytes × Node)) (hk : ∀ p ∈ fs, Plain lib p.1) (h : ∀ p ∈ fs, Names lib p.2) : Names lib (.obj fs)

/-- At most `d` containers within each other. -/
inductive Depth : Nat → Node → Prop where
  | leaf (d v) : Depth d (.leaf v)
  | arr (d xs) (h : ∀ x ∈ xs, Depth d x) : Depth (d + 1) (.arr xs)
  | obj (d) (fs : List (Bytes × Node)) (h : ∀ p ∈ fs, Depth d p.2) : Depth (d + 1) (.obj fs)

end Verif.Text
