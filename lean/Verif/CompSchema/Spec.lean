import Verif.CompSchema.Model
/-!
What a computed schema is meant to say.
-/
namespace Verif.CompSchema
open Verif.Trie
variable {E V : Type} [LinearOrder E] [DecidableEq V]

/-- A document comes with a field of a type; `n` such documents go. -/
inductive Op (E V : Type) where
  | append (name : List E) (ty : V)
  | drop (name : List E) (ty : V) (n : Nat)

def Op.name : Op E V → List E
  | .append p _ => p
  | .drop p _ _ => p

def step (s : Schema E V) : Op E V → Schema E V
  | .append p ty => (s.append p ty).1
  | .drop p ty n => s.dropN p ty n

def after (ops : List (Op E V)) : Schema E V := ops.foldl step Schema.empty

/-- How many live documents contribute the type to the field. -/
def countStep (c : List E → V → Nat) : Op E V → List E → V → Nat
  | .append p ty => fun q u => if q = p ∧ u = ty then c q u + 1 else c q u
  | .drop p ty n => fun q u => if q = p ∧ u = ty then c q u - n else c q u

def count (ops : List (Op E V)) : List E → V → Nat := ops.foldl countStep fun _ _ => 0

/-- No append of the history threw. -/
def NoThrow (ops : List (Op E V)) : Prop :=
  ∀ pre post p ty, ops = pre ++ Op.append p ty :: post → ((after pre).append p ty).2 = false

/-- No name begins with what is left of another one without its last letter, unless both have the same length. -/
def Spread (ops : List (Op E V)) : Prop :=
  ∀ o ∈ ops, ∀ o' ∈ ops, o.name.dropLast <+: o'.name → o'.name.length = o.name.length

/-- A field changes its type only when no document has it with another type. -/
def OneType (ops : List (Op E V)) : Prop :=
  ∀ pre post p ty, ops = pre ++ Op.append p ty :: post → ∀ u, 0 < count pre p u → u = ty

end Verif.CompSchema
