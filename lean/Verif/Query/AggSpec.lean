import Verif.Query.AggModel
import Verif.Query.SortSpec
/-!
What C24 and C26 say.
-/
namespace Verif.Query

open Verif.DocVal Verif.PhysKey Verif.LogVal

/-- The values of a field over the documents: a document without the field has none. -/
def valuesOf (k : Bytes) (docs : List Doc) : List V := docs.filterMap fun d => d.value k

/-- Integers with their types, as values. -/
def ints (ns : List (ITy × Int)) : List V := ns.map fun p => .int p.1 p.2

/-- The sum of all. -/
def total (ns : List (ITy × Int)) : Int := (ns.map Prod.snd).sum

/-- `v` is one of the values and none of them is greater. -/
def IsGreatest (kd : Kind) (vs : List V) (v : V) : Prop := v ∈ vs ∧ ∀ w ∈ vs, kd.lt v w = false

/-- `v` is one of the values and none of them is less. -/
def IsLeast (kd : Kind) (vs : List V) (v : V) : Prop := v ∈ vs ∧ ∀ w ∈ vs, kd.lt w v = false

/-- The same value: numbers by value whatever their integer type. -/
def SameValue : V → V → Bool
  | .na, .na => true
  | .bool a, .bool b => a == b
  | .int _ a, .int _ b => a == b
  | .big a, .big b => a == b
  | .str a, .str b => a == b
  | _, _ => false

/-- The document has a value in every key field. -/
def HasKeys (keys : List Bytes) (d : Doc) : Bool := keys.all fun k => (d.value k).isSome

/-- The documents have the same values in the key fields. -/
def SameKeys (keys : List Bytes) (a b : Doc) : Bool := keys.all fun k =>
  match a.value k, b.value k with
  | some x, some y => SameValue x y
  | _, _ => false

/-- The classes of a relation, in order of first occurrence, each in the order of the list. -/
def classes {α : Type} (same : α → α → Bool) : List α → List (List α)
  | [] => []
  | a :: l => (a :: l.filter (same a)) :: classes same (l.filter fun b => !same a b)
termination_by l => l.length
decreasing_by
  simp only [List.length_unattach]
  exact Nat.lt_succ_of_le (Nat.le_trans (List.length_filter_le _ _) (by simp))

end Verif.Query
