import Verif.Query.Model
/-!
Model of joins (components/physical_plan/collection/operators/operator_join.cpp) and of the merge of two documents by
their top level fields (components/document/document.cpp:518-529, json_trie_node.cpp:150-169,
container/json_object.cpp:133-155).

Simplifications: an object or array is an opaque `container`; field names have no `/` and `~` (a name is a path for
`set`, operator_join.cpp:80).
-/
namespace Verif.Query

open Verif.DocVal

/-- The name `_id`. -/
def idKey : Bytes := [95, 105, 100]

/-- A row of the result: its fields. -/
abbrev Row := List (Bytes × Cell)

/-- All fields of a document: `_id`, with the text of the identifier (document_id.hpp), and the rest. -/
def allFields (text : Nat → Bytes) (d : Doc) : Row := (idKey, .scalar (.str (text d.id))) :: d.fields

/-- `json_trie_node::merge` of two present nodes, json_trie_node.cpp:150-169: the second one unless it is an object.
Under an object, a first node that is no object is read as one (160-164).  An array in the second document is taken as it
is in the code; here it is a container like an object. -/
def mergeCell : Cell → Cell → Res Cell
  | c, .missing => .ok c
  | _, .scalar v => .ok (.scalar v)
  | .missing, .container => .ok .container
  | .container, .container => .ok .container
  | .scalar _, .container => .ub

/-- First loop of `json_object::merge`, json_object.cpp:136-147: the fields of the second document. -/
def mergeSecond (l : Row) : Row → Res Row
  | [] => .ok []
  | (k, c) :: r => (mergeCell (look l k) c).bind fun c' => (mergeSecond l r).bind fun r' => .ok ((k, c') :: r')

/-- Whether a row has a field. -/
def hasField (r : Row) (k : Bytes) : Bool := r.any fun p => p.1 == k

/-- `json_object::merge`, json_object.cpp:133-155: then the fields of the first document the second has not. -/
def mergeRow (l r : Row) : Res Row := (mergeSecond l r).bind fun r' => .ok (r' ++ l.filter fun p => !hasField r p.1)

/-- The document of nulls an unmatched row is merged with: the fields of the first document of the other side
(operator_join.cpp:75-91, 116-123, 140-147). -/
def nullsOf : List Row → Row
  | [] => []
  | r :: _ => r.map fun p => (p.1, .scalar .na)

/-- The inner loop over the right documents for one left document, operator_join.cpp:64-68, 97-104, 127-132: the rows
appended, and for each right document whether it matched. -/
def innerRow (p : Row → Row → Res Bool) (l : Row) : List Row → Res (List Row × List Bool)
  | [] => .ok ([], [])
  | r :: rs => (p l r).bind fun b =>
    if b then (mergeRow l r).bind fun d => (innerRow p l rs).bind fun o => .ok (d :: o.1, true :: o.2)
    else (innerRow p l rs).bind fun o => .ok (o.1, false :: o.2)

/-- `inner_join_`, operator_join.cpp:62-70. -/
def innerJoin (p : Row → Row → Res Bool) (rs : List Row) : List Row → Res (List Row)
  | [] => .ok []
  | l :: ls => (innerRow p l rs).bind fun o => (innerJoin p rs ls).bind fun out => .ok (o.1 ++ out)

/-- The row of a left document without match: merged with nulls. -/
def unmatched (l : Row) (nulls : Row) (seen : List Bool) : Res (List Row) :=
  if seen.any id then .ok [] else (mergeRow l nulls).bind fun d => .ok [d]

/-- The loop of `outer_left_join_`, operator_join.cpp:125-137. -/
def leftLoop (p : Row → Row → Res Bool) (nulls : Row) (rs : List Row) : List Row → Res (List Row)
  | [] => .ok []
  | l :: ls => (innerRow p l rs).bind fun o => (unmatched l nulls o.2).bind fun u =>
    (leftLoop p nulls rs ls).bind fun out => .ok (o.1 ++ u ++ out)

/-- `outer_left_join_`, operator_join.cpp:115-137. -/
def leftJoin (p : Row → Row → Res Bool) (ls rs : List Row) : Res (List Row) := leftLoop p (nullsOf rs) rs ls

/-- The inner loop of `outer_right_join_` over the left documents, operator_join.cpp:151-156. -/
def innerCol (p : Row → Row → Res Bool) (r : Row) : List Row → Res (List Row × List Bool)
  | [] => .ok ([], [])
  | l :: ls => (p l r).bind fun b =>
    if b then (mergeRow l r).bind fun d => (innerCol p r ls).bind fun o => .ok (d :: o.1, true :: o.2)
    else (innerCol p r ls).bind fun o => .ok (o.1, false :: o.2)

/-- The row of a right document without match. -/
def unmatchedR (nulls : Row) (r : Row) (seen : Bool) : Res (List Row) :=
  if seen then .ok [] else (mergeRow nulls r).bind fun d => .ok [d]

/-- The loop of `outer_right_join_`, operator_join.cpp:149-161. -/
def rightLoop (p : Row → Row → Res Bool) (nulls : Row) (ls : List Row) : List Row → Res (List Row)
  | [] => .ok []
  | r :: rs => (innerCol p r ls).bind fun o => (unmatchedR nulls r (o.2.any id)).bind fun u =>
    (rightLoop p nulls ls rs).bind fun out => .ok (o.1 ++ u ++ out)

/-- `outer_right_join_`, operator_join.cpp:139-161. -/
def rightJoin (p : Row → Row → Res Bool) (ls rs : List Row) : Res (List Row) := rightLoop p (nullsOf ls) ls rs

/-- `visited_right[right_index] = true` of the matches of one left document, operator_join.cpp:100. -/
def orAll : List Bool → List Bool → List Bool
  | a :: as, b :: bs => (a || b) :: orAll as bs
  | as, _ => as

/-- The first loop of `outer_full_join_`, operator_join.cpp:94-109. -/
def fullLoop (p : Row → Row → Res Bool) (nulls : Row) (rs : List Row) : List Row → List Bool → Res (List Row × List Bool)
  | [], seen => .ok ([], seen)
  | l :: ls, seen => (innerRow p l rs).bind fun o => (unmatched l nulls o.2).bind fun u =>
    (fullLoop p nulls rs ls (orAll seen o.2)).bind fun out => .ok (o.1 ++ u ++ out.1, out.2)

/-- The second loop of `outer_full_join_`, operator_join.cpp:110-116: the right documents not visited. -/
def restRight (nulls : Row) : List Row → List Bool → Res (List Row)
  | r :: rs, s :: seen => (unmatchedR nulls r s).bind fun u => (restRight nulls rs seen).bind fun out => .ok (u ++ out)
  | _, _ => .ok []

/-- `outer_full_join_`, operator_join.cpp:72-113.  If there are left documents, the first right document is read to build
the nulls of the left side (75-81): undefined without right documents, and the wrong side otherwise. -/
def fullJoin (p : Row → Row → Res Bool) (ls rs : List Row) : Res (List Row) :=
  if !ls.isEmpty && rs.isEmpty then .ub
  else (fullLoop p (nullsOf rs) rs ls (List.replicate rs.length false)).bind fun o =>
    (restRight (if ls.isEmpty then [] else nullsOf rs) rs o.2).bind fun out => .ok (o.1 ++ out)

/-- `cross_join_`, operator_join.cpp:163-169. -/
def crossJoin (ls rs : List Row) : Res (List Row) := innerJoin (fun _ _ => .ok true) rs ls

/-- `operator_join_t::type`. -/
inductive JoinType where
  | inner | full | left | right | cross
deriving DecidableEq, Repr

/-- The switch of `on_execute_impl`, operator_join.cpp:35-53. -/
def joinRows (t : JoinType) (p : Row → Row → Res Bool) (ls rs : List Row) : Res (List Row) :=
  match t with
  | .inner => innerJoin p rs ls
  | .full => fullJoin p ls rs
  | .left => leftJoin p ls rs
  | .right => rightJoin p ls rs
  | .cross => crossJoin ls rs

/-- A row as the document the condition looks at. -/
def asDoc (r : Row) : Doc := ⟨0, r⟩

/-- `operator_join_t::on_execute_impl`, operator_join.cpp:22-60, when both sides have output. -/
def joinOp (env : Env) (text : Nat → Bytes) (t : JoinType) (f : Filter Leaf) (ls rs : List Doc) : Res (List Row) :=
  joinRows t (fun l r => pred2 env f (asDoc l) (asDoc r)) (ls.map (allFields text)) (rs.map (allFields text))

end Verif.Query
