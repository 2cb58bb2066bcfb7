import Verif.Metadata.Model
/-!
Specification of the catalogue on disk: a finite map from database names to lists of collections. A
restart changes nothing.
-/
namespace Verif.Metadata
open Verif Verif.TableId

/-- Which collections a database has; `none`: there is no such database. -/
abbrev Cat := Str → Option (List Str)

def Cat.set (c : Cat) (db : Str) (v : Option (List Str)) : Cat := fun x => if x = db then v else c x

/-- What each call does to the catalogue, and what it answers. -/
def Cat.step (c : Cat) : Op → Cat × Bool
  | .appendDb db => if c db = none then (c.set db (some []), true) else (c, false)
  | .removeDb db => if c db = none then (c, false) else (c.set db none, true)
  | .appendCol db col =>
    match c db with
    | none => (c, false)
    | some l => if col ∈ l then (c, false) else (c.set db (some (l ++ [col])), true)
  | .removeCol db col =>
    match c db with
    | none => (c, false)
    | some l => if col ∈ l then (c.set db (some (l.filter (· != col))), true) else (c, false)
  | .reopen => (c, true)

def Cat.run (c : Cat) : List Op → Cat × List Bool
  | [] => (c, [])
  | op :: ops => ((c.step op).1.run ops).1 |> fun c' => (c', (c.step op).2 :: ((c.step op).1.run ops).2)

/-- The names the file format can hold. -/
def GoodOp : Op → Prop
  | .appendDb db => ':' ∉ db
  | .appendCol _ col => ';' ∉ col ∧ '\n' ∉ col
  | _ => True

end Verif.Metadata
