import Verif.VecVal.Model
/-!
What C80 - C82 say, and the types they say it about.
-/
namespace Verif.VecVal

mutual
/-- No array anywhere in the type. -/
def noArray : Ty → Bool
  | .leaf _ => true
  | .list t => noArray t
  | .array _ _ => false
  | .struct ts => noArrays ts
def noArrays : List Ty → Bool
  | [] => true
  | t :: ts => noArray t && noArrays ts
end

/-- Types of single values that vectors can hold: all but DECIMAL and TIMESTAMP. -/
def Kind.usable : Kind → Bool
  | .decimal => false
  | .timestamp => false
  | _ => true

mutual
/-- Types C80 is proved for: made of types other than TIMESTAMP and the like, and with no array within a list. -/
def plain : Ty → Bool
  | .leaf k => k.usable
  | .list t => plain t && noArray t
  | .array t _ => plain t
  | .struct ts => plains ts
def plains : List Ty → Bool
  | [] => true
  | t :: ts => plain t && plains ts
end

mutual
/-- In a value every array has the number of elements its type says. -/
def Sized : (t : Ty) → Val t → Prop
  | .leaf _, _ => True
  | .list _, none => True
  | .list t, some xs => ∀ x ∈ xs, Sized t x
  | .array _ _, none => True
  | .array t n, some xs => xs.length = n ∧ ∀ x ∈ xs, Sized t x
  | .struct _, none => True
  | .struct ts, some xs => Sizeds ts xs
def Sizeds : (ts : List Ty) → Vals ts → Prop
  | [], _ => True
  | t :: ts, x => Sized t x.1 ∧ Sizeds ts x.2
end

mutual
/-- The value of a row nothing was written to: 0, the empty string, no elements. -/
def zero : (t : Ty) → Val t
  | .leaf k => some k.zero
  | .list _ => some []
  | .array t n => some (List.replicate n (zero t))
  | .struct ts => some (zeros ts)
def zeros : (ts : List Ty) → Vals ts
  | [] => ()
  | t :: ts => (zero t, zeros ts)
end

/-- Not a struct itself; a list or array of structs is none. -/
def notStruct : Ty → Bool
  | .struct _ => false
  | _ => true

/-- The writes of a history, one after the other. -/
def writes (t : Ty) (v : Vec t) : List (Nat × Val t) → Res (Vec t)
  | [] => .ok v
  | w :: ws => (set t v w.1 w.2).bind fun v' => writes t v' ws

/-- What was last written to a row; `d` if nothing was. -/
def last {α : Type} (d : α) (ws : List (Nat × α)) (r : Nat) : α :=
  match ws with
  | [] => d
  | w :: ws => last (if w.1 = r then w.2 else d) ws r

end Verif.VecVal
