import Verif.Query.Model
/-!
Model of insert and delete on a collection of documents (components/physical_plan/collection/operators/operator_insert.cpp,
operator_delete.cpp, scan/primary_key_scan.cpp, components/physical_plan_generator/impl/create_plan_insert.cpp,
create_plan_delete.cpp, services/collection/executor.cpp).

Simplifications: as in `Query/Model`; the storage, a B-tree by `_id`, is the list of its documents in order of `_id`; the
secondary indexes are in `Query/Index`; names in a key translation are top level names other than `_id`.
-/
namespace Verif.Query

open Verif.DocVal

/-- `insert_or_assign` of the document storage (collection.hpp:35), used at operator_insert.cpp:27, 35. -/
def assign (d : Doc) : List Doc → List Doc
  | [] => [d]
  | e :: es => if d.id < e.id then d :: e :: es else if d.id = e.id then d :: es else e :: assign d es

/-- `find` then `erase(it)` of the storage, operator_delete.cpp:35-37. -/
def remove (i : Nat) : List Doc → List Doc
  | [] => []
  | e :: es => if e.id = i then es else e :: remove i es

/-- `emplace` of the storage, executor.cpp:127-129: a stored document stays. -/
def emplace (d : Doc) (store : List Doc) : List Doc := if hasId store d.id then store else assign d store

/-- `primary_key_scan::on_execute_impl`, primary_key_scan.cpp:10-23, on the output of the child. -/
def primaryScan (store : List Doc) : List Doc → Option (List Doc)
  | [] => some []
  | d :: ds => if hasId store d.id then none else (primaryScan store ds).map (d :: ·)

/-- `set` of one top level field: replaces it or adds it. -/
def setField (k : Bytes) (c : Cell) : List (Bytes × Cell) → List (Bytes × Cell)
  | [] => [(k, c)]
  | (n, e) :: fs => if n = k then (k, c) :: fs else (n, e) :: setField k c fs

/-- `set(json_pointer, other, other_json_pointer)`, document.cpp:228-263: a missing field, an object, an array or a value
of another type is not copied, and the error code is dropped by the caller. -/
def copyField (fs : List (Bytes × Cell)) (k : Bytes) (src : Doc) (k2 : Bytes) : List (Bytes × Cell) :=
  match src.get k2 with
  | .missing => fs
  | .container => fs
  | .scalar (.other _) => fs
  | .scalar v => setField k (.scalar v) fs

/-- Whether the translation only names fields as they are, operator_insert.cpp:16-22. -/
def simpleInsert (tr : List (Bytes × Bytes)) : Bool := tr.all fun p => p.1 == p.2

/-- The copies of one document, operator_insert.cpp:31-34. -/
def copyAll (d : Doc) : List (Bytes × Bytes) → List (Bytes × Cell) → List (Bytes × Cell)
  | [], fs => fs
  | p :: ps, fs => copyAll d ps (copyField fs p.1 d p.2)

/-- The document stored for one of the batch, operator_insert.cpp:26-37. -/
def stored (tr : List (Bytes × Bytes)) (d : Doc) : Doc := if simpleInsert tr then d else ⟨d.id, copyAll d tr []⟩

/-- The loop of `operator_insert`, operator_insert.cpp:23-41: storage and modified `_id`s. -/
def insertLoop (tr : List (Bytes × Bytes)) : List Doc → List Doc → List Doc × List Nat
  | store, [] => (store, [])
  | store, d :: ds => let r := insertLoop tr (assign (stored tr d) store) ds; (r.1, d.id :: r.2)

/-- The plan of an insert, create_plan_insert.cpp:13-28: the check of the `_id`s, then the insert. -/
def insertOp (tr : List (Bytes × Bytes)) (store batch : List Doc) : List Doc × Option (List Nat) :=
  match primaryScan store batch with
  | none => (store, none)
  | some ds => let r := insertLoop tr store ds; (r.1, some r.2)

/-- `document_storage().at(id)`, executor.cpp:399: throws if it is absent. -/
def atId (store : List Doc) (i : Nat) : Res Doc :=
  match store.find? (fun d => d.id == i) with
  | some d => .ok d
  | none => .throws

/-- The documents of a list of `_id`s, executor.cpp:396-400. -/
def atAll (store : List Doc) : List Nat → Res (List Doc)
  | [] => .ok []
  | i :: is => (atId store i).bind fun d => (atAll store is).map' (d :: ·)

/-- `insert_document_impl`, executor.cpp:381-408: the cursor that answers the insert. -/
def insertReply (r : List Doc × Option (List Nat)) : Res (List Doc) :=
  match r.2 with
  | some ids => atAll r.1 ids
  | none => .ok r.1

/-- Delete of the output of a scan, operator_delete.cpp:31-42: storage and removed `_id`s. -/
def deleteLoop : List Doc → List Doc → List Doc × List Nat
  | store, [] => (store, [])
  | store, d :: ds =>
    if hasId store d.id then let r := deleteLoop (remove d.id store) ds; (r.1, d.id :: r.2) else deleteLoop store ds

/-- Whether a document of the right side matches, operator_delete.cpp:16-29: the loop stops at the first. -/
def anyMatch (p : Doc → Doc → Res Bool) (l : Doc) : List Doc → Res Bool
  | [] => .ok false
  | r :: rs => (p l r).bind fun b => if b then .ok true else anyMatch p l rs

/-- Delete with a right side, operator_delete.cpp:13-30. -/
def deleteUsingLoop (p : Doc → Doc → Res Bool) (rs : List Doc) : List Doc → List Doc → Res (List Doc × List Nat)
  | store, [] => .ok (store, [])
  | store, d :: ds =>
    (anyMatch p d rs).bind fun b =>
      if b && hasId store d.id then (deleteUsingLoop p rs (remove d.id store) ds).map' fun r => (r.1, d.id :: r.2)
      else deleteUsingLoop p rs store ds

/-- `operator_delete::on_execute_impl`, operator_delete.cpp:11-44. -/
def deleteOp (p2 : Doc → Doc → Res Bool) (store : List Doc) (left : Option (List Doc)) (right : Option (List Doc)) :
    Res (List Doc × Option (List Nat)) :=
  match left, right with
  | some l, some r => (deleteUsingLoop p2 r store l).map' fun x => (x.1, some x.2)
  | some l, none => let x := deleteLoop store l; .ok (x.1, some x.2)
  | none, _ => .ok (store, none)

/-- The plan of a delete with a filter, create_plan_delete.cpp:31-36, when the filter is scanned. -/
def deleteMatch (lim : Int) (p : Doc → Res Bool) (store : List Doc) : Res (List Doc × Option (List Nat)) :=
  (fullScan lim p store).bind fun out => deleteOp (fun _ _ => .ok false) store out none

/-- The plan of a delete with another collection, create_plan_delete.cpp:37-66: the limit goes to both scans, the filter to
the delete. -/
def deleteUsing (lim : Int) (p : Doc → Doc → Res Bool) (store other : List Doc) : Res (List Doc × Option (List Nat)) :=
  (fullScan lim (fun _ => .ok true) store).bind fun l => (fullScan lim (fun _ => .ok true) other).bind fun r => deleteOp p store l r

/-- `delete_document_impl`, executor.cpp:428-463: the size of the cursor. `modified()` is dereferenced without a test. -/
def deleteReply (r : List Doc × Option (List Nat)) : Res Nat :=
  match r.2 with
  | some ids => .ok ids.length
  | none => .ub

end Verif.Query
