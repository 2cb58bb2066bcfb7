import Verif.Query.SortModel
import Verif.DocVal.Props
/-!
What C25 says.
-/
namespace Verif.Query

open Verif.DocVal

/-- The order of the values of a field of one kind: smaller values first, then null, then documents without the
field. -/
inductive Below (k : Kind) : Cell → Cell → Prop
  | values (a b : V) : k.has a → k.has b → k.lt a b = true → Below k (.scalar a) (.scalar b)
  | null (a : V) : k.has a → Below k (.scalar a) (.scalar .na)
  | missing (a : V) : k.has a → Below k (.scalar a) .missing
  | nullMissing : Below k (.scalar .na) .missing

/-- A sort key and the kind of the values of its field. -/
abbrev Keyed := SortKey × Kind

/-- `a` comes before `b` by this key. -/
def Keyed.before (k : Keyed) (a b : Doc) : Prop :=
  if k.1.asc then Below k.2 (a.get k.1.key) (b.get k.1.key) else Below k.2 (b.get k.1.key) (a.get k.1.key)

/-- `a` has to come before `b`: there is a first key that tells them apart, and it puts `a` first. -/
def MustPrecede (keys : List Keyed) (a b : Doc) : Prop :=
  ∃ i, ∃ h : i < keys.length, (keys[i]).before a b ∧ ∀ j, ∀ hj : j < i, ¬ (keys[j]).before a b ∧ ¬ (keys[j]).before b a

end Verif.Query
