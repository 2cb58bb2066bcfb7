import Verif.ABuf.Model
/-!
# What a user expects of a buffer for Arrow, for C121: a list of bytes, known or not
-/
namespace Verif.ABuf.Spec

open Verif.ABuf

/-- A list of this length: cut off, or with these bytes at its end. -/
def toLength (l : List (Option UInt8)) (n : Nat) (x : Option UInt8) : List (Option UInt8) := l.take n ++ List.replicate (n - l.length) x

/-- The number of bytes with a bit for every row. -/
def bytesFor (rows : Nat) : Nat := if rows % 8 = 0 then rows / 8 else rows / 8 + 1

/-- What an operation makes of the bytes. -/
def after (l : List (Option UInt8)) : Op → List (Option UInt8)
  | .reserve _ => l
  | .resize n => toLength l n none
  | .resizeFill n v => toLength l n (some v)
  | .validity rows => toLength l (bytesFor rows) (some 255)
  | .write i v => l.set i (some v)

/-- No size above 2⁶³, and bytes are written inside only. -/
def Fits (l : List (Option UInt8)) : Op → Prop
  | .reserve n | .resize n | .resizeFill n _ => n ≤ 2 ^ 63
  | .validity rows => rows + 7 < 2 ^ 64
  | .write i _ => i < l.length

/-- All of them do. -/
def AllFit : List (Option UInt8) → List Op → Prop
  | _, [] => True
  | l, o :: os => Fits l o ∧ AllFit (after l o) os

/-- The buffer has so many bytes, and shows those that are known. -/
def Shows (b : Buf) (l : List (Option UInt8)) : Prop :=
  b.count = l.length ∧ l.length ≤ b.mem.length ∧ ∀ (i : Nat) (v : UInt8), l[i]? = some (some v) → b.mem[i]? = some (some v)

end Verif.ABuf.Spec
