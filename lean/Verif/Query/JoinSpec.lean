import Verif.Query.JoinModel
/-!
What a join has to return, in terms of a yes/no condition on pairs.
-/
namespace Verif.Query

open Verif.DocVal

/-- The pairs the condition selects, by left and then by right document. -/
def pairs (q : Row → Row → Bool) (ls rs : List Row) : List (Row × Row) :=
  ls.flatMap fun l => (rs.filter (q l)).map fun r => (l, r)

/-- The left documents without a partner. -/
def lonelyL (q : Row → Row → Bool) (ls rs : List Row) : List Row := ls.filter fun l => !rs.any (q l)

/-- The right documents without a partner. -/
def lonelyR (q : Row → Row → Bool) (ls rs : List Row) : List Row := rs.filter fun r => !ls.any fun l => q l r

/-- What a row of a pair reads under a name: the right document's field if it has one, else the left one's. -/
def pairReads (x : Row × Row) (k : Bytes) : Cell := if hasField x.2 k then look x.2 k else look x.1 k

/-- What a row without partner reads, with the names of the other side: its own field, null under the other names. -/
def ownReads (names : List Bytes) (l : Row) (k : Bytes) : Cell :=
  if hasField l k then look l k else if k ∈ names then .scalar .na else .missing

/-- The names of the first document. -/
def headNames : List Row → List Bytes
  | [] => []
  | r :: _ => r.map Prod.fst

/-- What an unmatched left row reads in fact: null under every name of the first right document. -/
def nulledReads (names : List Bytes) (l : Row) (k : Bytes) : Cell := if k ∈ names then .scalar .na else look l k

/-- No objects or arrays, no repeated names (an object is a map). -/
structure Flat (r : Row) : Prop where
  scalar : ∀ p ∈ r, ∃ v, p.2 = .scalar v
  names : (r.map Prod.fst).Nodup

/-- The condition has an answer on every pair. -/
def Answered (p : Row → Row → Res Bool) (q : Row → Row → Bool) (ls rs : List Row) : Prop :=
  ∀ l ∈ ls, ∀ r ∈ rs, p l r = .ok (q l r)

end Verif.Query
