import Verif.Query.Model
/-!
Model of sorting (components/physical_plan/collection/operators/operator_sort.cpp and sort/sort.{hpp,cpp}).
Simplifications: as in `Query/Model.lean`; no document pointer is null.
-/
namespace Verif.Query

open Verif.DocVal

/-- A sort key and its direction, `sorter_t::add`, sort/sort.cpp:7-12. -/
structure SortKey where
  key : Bytes
  asc : Bool
deriving DecidableEq, Repr

/-- The function of one key, sort/sort.cpp:8-11: the comparison, times 1 or -1. -/
def SortKey.compare (k : SortKey) (a b : Doc) : Res Ordering :=
  (compareCell (a.get k.key) (b.get k.key)).bind fun o => .ok (if k.asc then o else o.swap)

/-- `sorter_t::operator()`, sort/sort.hpp:28-41: the first key that tells the documents apart decides. -/
def sorter : List SortKey → Doc → Doc → Res Bool
  | [], _, _ => .ok false
  | k :: ks, a, b => (k.compare a b).bind fun
    | .lt => .ok true
    | .gt => .ok false
    | .eq => sorter ks a b

/-- What `std::sort` asks of its comparison on the elements it is given: defined, and a strict weak order. -/
structure Sortable {α : Type} (lt : α → α → Res Bool) (l : List α) : Prop where
  total : ∀ a ∈ l, ∀ b ∈ l, ∃ r, lt a b = .ok r
  irrefl : ∀ a ∈ l, lt a a = .ok false
  trans : ∀ a ∈ l, ∀ b ∈ l, ∀ c ∈ l, lt a b = .ok true → lt b c = .ok true → lt a c = .ok true
  ties : ∀ a ∈ l, ∀ b ∈ l, ∀ c ∈ l, lt a b = .ok false → lt b a = .ok false → lt b c = .ok false → lt c b = .ok false →
    lt a c = .ok false

/-- `std::sort` as its contract: with a comparison it accepts the result is a permutation of the input in which no
element is less than one before it, and the sort is not stable; with any other comparison every outcome is possible.
A relation: the outcome is not determined. -/
def StdSort {α : Type} (lt : α → α → Res Bool) (l : List α) : Res (List α) → Prop
  | .ok out => Sortable lt l → out.Perm l ∧ out.Pairwise fun a b => lt b a = .ok false
  | _ => ¬ Sortable lt l

/-- `operator_sort_t::on_execute_impl`, operator_sort.cpp:17-26. -/
def sortOp (keys : List SortKey) (docs : List Doc) : Res (List Doc) → Prop := StdSort (sorter keys) docs

end Verif.Query
