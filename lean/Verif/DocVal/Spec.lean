import Verif.DocVal.Model
/-!
What C32 and C49 say.
-/
namespace Verif.DocVal

open Verif.Num Verif.PhysKey Verif.LogVal

/-- A comparison that is defined on all of `S` and a consistent order with ties: it can be sorted by. -/
structure Ordered {α : Type} (S : α → Prop) (cmp : α → α → Res Ordering) : Prop where
  refl : ∀ a, S a → cmp a a = .ok .eq
  swap : ∀ a b, S a → S b → ∃ o, cmp a b = .ok o ∧ cmp b a = .ok o.swap
  trans : ∀ a b c, S a → S b → S c → cmp a b = .ok .lt → cmp b c = .ok .lt → cmp a c = .ok .lt
  ties : ∀ a b c, S a → S b → S c → cmp a b = .ok .eq → cmp a c = cmp b c

/-- A number whose conversion to 64-bit integers is either defined or refused: not NaN, below 2^64, not 2^63. -/
def tame (f : FVal) : Prop := f = .ninf ∨ ∃ z, f = .fin z ∧ z < 2 ^ 64 * one ∧ z ≠ 2 ^ 63 * one

/-- Kinds of values that are comparable among each other. -/
inductive Kind where
  | ints (ts : List ITy)
  | bigs
  | floats
  | doubles
  | strs
  | bools

/-- The values of a kind.  Integers may be of several types if each of these types holds each of the values. -/
def Kind.has : Kind → V → Prop
  | .ints ts, .int t v => t ∈ ts ∧ ∀ u ∈ ts, u.fits v
  | .bigs, .big _ => True
  | .floats, .float b => tame (decode32 b)
  | .doubles, .double b => tame (decode64 b)
  | .strs, .str _ => True
  | .bools, .bool _ => True
  | _, _ => False

/-- A field of the kind, or null, or missing. -/
def Kind.cell (k : Kind) : Cell → Prop
  | .missing => True
  | .scalar v => v = .na ∨ k.has v
  | .container => False

/-- What reading the integer `v` as type `t` should do. -/
def readAs (t : ITy) (v : Int) : Res Int := if t.fits v then .ok v else .throws

end Verif.DocVal
