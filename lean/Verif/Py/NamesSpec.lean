import Verif.Py.NamesModel
/-!
What the lists of names should be.
-/
namespace Verif.Py.Names

open Verif.Node (Plan Coll)

/-- Name `c` was asked for through object `h` and not dropped through it since. -/
def Asked (cs : List Call) (h c : Nat) : Prop := ∃ a b, cs = a ++ .collection h c :: b ∧ Call.dropCollection h c ∉ b

/-- The collection exists: a query of it succeeds. -/
def CollExists (s : Prog) (d c : Nat) : Prop := ∃ t, step s (.sql (.find ⟨d, c⟩)) = some (t, .answer true)

/-- The database exists: creating it is refused. -/
def DbExists (s : Prog) (d : Nat) : Prop := ∃ t, step s (.sql (.createDb d)) = some (t, .answer false)

/-- The process does not end. -/
def Stays (cs : List Call) : Prop := ∀ c ∈ cs, ∀ es, c ≠ .restart es

/-- The database of a plan that creates or drops a database or a collection. -/
def shapes : Plan → Option Nat
  | .createDb d => some d
  | .dropDb d => some d
  | .createColl c => some c.db
  | .dropColl c => some c.db
  | _ => none

/-- A call that leaves the collections of database `d` alone, or goes through database object `h`. -/
def Polite (s : Prog) (d h : Nat) : Call → Prop
  | .database _ => True
  | .collection g _ => g = h ∨ ∀ o, s.dbs[g]? = some o → o.db ≠ d
  | .dropCollection g _ => g = h ∨ ∀ o, s.dbs[g]? = some o → o.db ≠ d
  | .drop i => ∀ x, s.colls[i]? = some x → x.db ≠ d
  | .sql p => shapes p ≠ some d
  | .restart _ => False

/-- All calls are polite, each in the state it finds. -/
def AllPolite (d h : Nat) : Prog → List Call → Prop
  | _, [] => True
  | s, c :: cs => Polite s d h c ∧ ∀ t o, step s c = some (t, o) → AllPolite d h t cs

end Verif.Py.Names
