import Verif.Update.Model
import Verif.Json.Spec
/-!
What C34 says.
-/
namespace Verif.Update

open Verif.DocVal Verif.Num Verif.PhysKey Verif.LogVal Verif.Json Verif.Query

/-- Values that can be assigned without loss: they fit their type, unsigned ones are below 2^56, texts below 2^32 bytes. -/
def Sound : V → Prop
  | .bool _ => True
  | .int t v => t.fits v ∧ (t.signed = false → v < 2 ^ 56)
  | .big v => -2 ^ 127 ≤ v ∧ v < 2 ^ 127
  | .double b => decode64 b ≠ .nan
  | .str s => s.length < 2 ^ 32
  | _ => False

/-- Values of the same kind. -/
def Kin : V → V → Prop
  | .bool _, .bool _ => True
  | .int s a, .int t _ => s.signed = t.signed ∧ s.fits a
  | .big _, .big _ => True
  | .double _, .double _ => True
  | .str _, .str _ => True
  | _, _ => False

/-- The number, truth value or text is the same. -/
def Same : V → V → Prop
  | .bool a, .bool b => a = b
  | .int _ a, .int _ b => a = b
  | .big a, .big b => a = b
  | .double a, .double b => decode64 a = decode64 b
  | .str a, .str b => a = b
  | _, _ => False

/-- The value of the kind that an absent one is taken for: `false`, zero, the empty text. -/
def Zero : V → Prop
  | .bool a => a = false
  | .int _ a => a = 0
  | .big a => a = 0
  | .double a => decode64 a = .fin 0
  | .str a => a = []
  | _ => True

/-- The value as it is stored: integers as 64-bit integers. -/
def kept : V → V
  | .int t v => .int (if t.signed then .i64 else .u64) v
  | v => v

/-- An expression that only reads: no assignment in it, all its fields with a side. -/
inductive Reads : Expr → Prop where
  | param (id) : Reads (.param id)
  | field (k s) (h : s ≠ .undefined) : Reads (.field k s)
  | bin (o l r) (hl : Reads l) (hr : Reads r) : Reads (.bin o (some l) (some r))
  | un (o l) (hl : Reads l) : Reads (.un o (some l) none)

/-- What an expression means for a document and, if there, a second one. -/
inductive Means (c : Ctx) (n : Node) (src : Option Node) : Expr → Option V → Prop where
  | param (id v) (h : c.params id = some v) : Means c n src (.param id) (some v)
  | own (k v) (h : getValue n k = .ok v) : Means c n src (.field k .own) v
  | other (k s v) (hs : src = some s) (h : getValue s k = .ok v) : Means c n src (.field k .other) v
  | bin (o l r x y v) (hl : Means c n src l x) (hr : Means c n src r y) (h : binary c.math o x y = .ok v) : Means c n src (.bin o (some l) (some r)) v
  | un (o l x v) (hl : Means c n src l x) (h : unary c.math o x = .ok v) : Means c n src (.un o (some l) none) v

/-- An assignment of an expression that only reads. -/
inductive Assigns : Expr → Prop where
  | set (k e) (h : Reads e) : Assigns (.set k (some e))

/-- The key of an assignment. -/
def keyOf : Expr → Option Bytes
  | .set k _ => some k
  | _ => none

/-- The mathematical result of an operation on integers (division towards zero). -/
def exact : Bin → Int → Int → Option Int
  | .add, a, b => some (a + b)
  | .sub, a, b => some (a - b)
  | .mult, a, b => some (a * b)
  | .div, a, b => if b = 0 then none else some (a.tdiv b)
  | .mod, a, b => if b = 0 ∨ b = -1 then none else some (a - b * a.tdiv b)
  | _, _, _ => none

end Verif.Update
