import Verif.CompSchema.Spec
/-!
Model of how the schema of a collection without a declared schema follows its documents: the executor changes the documents
(components/physical_plan/collection/operators/operator_insert.cpp, operator_delete.cpp, operator_update.cpp), the dispatcher learns of it when
the executor has finished (services/dispatcher/dispatcher.cpp, `execute_plan_delete_finish`), and changes the schema when the log has noted the plan
(`wal_success`, `update_catalog`).

Executor, dispatcher and log handle their messages in order of arrival, so the finished plans reach `update_catalog` in the order in which
they were executed: `done` and `logged` are the two queues they wait in.

Simplifications:
* a document is its `_id` and the names and types of the fields of the outermost object; the types are an arbitrary set `V` with equality, the outer types,
  since nothing else is compared (types.cpp:116-120); `type_from_json` (operator_write_data.cpp:79-103) gives ARRAY for an array with elements, NA
  for an empty one, STRUCT for an object, and the type of the value otherwise;
* the order of the documents in the storage is left out: new ones are added at the end;
* a filter is any function of the document, an update gives any fields or does not select the document;
* INSERT with a list of fields (`key_translation_`), upsert and documents given as chunks are left out;
* a restart finds all documents on the disk, and all of the log noted there.
-/
namespace Verif.DocSchema
open Verif.CompSchema
variable {E V : Type} [LinearOrder E] [DecidableEq V]

/-- A document: `_id`, names and types of its fields. -/
structure Doc (E V : Type) where
  id : Nat
  fields : List (List E × V)
  deriving DecidableEq

/-- The plans that change documents. -/
inductive Plan (E V : Type) where
  | insert (docs : List (Doc E V))
  | delete (p : Doc E V → Bool)
  | update (g : Doc E V → Option (List (List E × V)))

/-- `updated_types_map_t`, operator_write_data.hpp: names and types with a number. -/
abbrev Tally (E V : Type) := List ((List E × V) × Nat)

/-- What the executor reports: of a delete, the types of the removed documents (executor.cpp:428-463, 238-262). -/
inductive Done (E V : Type) where
  | insert (docs : List (Doc E V))
  | delete (gone : Tally E V)
  | update

/-- What `update_catalog` knows of the plan, dispatcher.cpp:664-754. -/
inductive Logged (E V : Type) where
  | insert (docs : List (Doc E V))
  | delete
  | update

/-- The documents, the schemas, `update_result_` of the dispatcher (dispatcher.hpp), and the queues. -/
structure Sys (E V C : Type) where
  store : C → List (Doc E V)
  sch : C → Schema E V
  slot : Tally E V
  done : List (C × Done E V)
  logged : List (C × Logged E V)
  dead : Bool

/-- Assignment to one key of a map. -/
def set {K X : Type} [DecidableEq K] (m : K → X) (k : K) (x : X) : K → X := fun y => if y = k then x else m y

/-- Nothing stored. -/
def init {C : Type} : Sys E V C := ⟨fun _ => [], fun _ => Schema.empty, [], [], [], false⟩

/-! ## The executor -/

/-- `insert_or_assign`, operator_insert.cpp:27. -/
def assign (l : List (Doc E V)) (d : Doc E V) : List (Doc E V) := l.filter (fun e => e.id != d.id) ++ [d]

/-- An insert, primary_key_scan.cpp:10-23 and operator_insert.cpp:23-41: nothing is stored if one `_id` is. -/
def insertDocs (l docs : List (Doc E V)) : List (Doc E V) :=
  if docs.any fun d => l.any fun e => e.id == d.id then l else docs.foldl assign l

/-- `++it->second` or `emplace(map_key, 1)`, `update_types_from_document`, operator_write_data.cpp:105-117. Simplified: in order of arrival, not of
`pair_comparator` (45-77). -/
def bump (k : List E × V) : Tally E V → Tally E V
  | [] => [(k, 1)]
  | (j, n) :: t => if j = k then (j, n + 1) :: t else (j, n) :: bump k t

/-- `update_types_from_document` of the removed documents, operator_delete.cpp:31-42. -/
def tally (docs : List (Doc E V)) : Tally E V := (docs.flatMap Doc.fields).foldl (fun t k => bump k t) []

/-- The update of one document, operator_update.cpp:73-84. -/
def updateDoc (g : Doc E V → Option (List (List E × V))) (d : Doc E V) : Doc E V := match g d with
  | some fs => ⟨d.id, fs⟩
  | none => d

variable {C : Type} [DecidableEq C]

/-- One plan executed: executor.cpp:164-219, 332-463. -/
def exec (s : Sys E V C) (c : C) : Plan E V → Sys E V C
  | .insert docs => { s with store := set s.store c (insertDocs (s.store c) docs), done := s.done ++ [(c, .insert docs)] }
  | .delete p => { s with store := set s.store c ((s.store c).filter fun d => !p d), done := s.done ++ [(c, .delete (tally ((s.store c).filter p)))] }
  | .update g => { s with store := set s.store c ((s.store c).map (updateDoc g)), done := s.done ++ [(c, .update)] }

/-! ## The dispatcher -/

/-- `execute_plan_finish` and `execute_plan_delete_finish`, dispatcher.cpp:300-471: the latter, which sets `update_result_`, is called if
something was removed (executor.cpp:243-262); the plan goes to the log. -/
def finish (s : Sys E V C) : Sys E V C :=
  match s.done with
  | [] => s
  | (c, .insert docs) :: t => { s with done := t, logged := s.logged ++ [(c, .insert docs)] }
  | (c, .delete gone) :: t => { s with done := t, logged := s.logged ++ [(c, .delete)], slot := if gone.isEmpty then s.slot else gone }
  | (c, .update) :: t => { s with done := t, logged := s.logged ++ [(c, .update)] }

/-- The loop of the insert, dispatcher.cpp:716-737; an exception of `append` ends the process. Second component: it did. -/
def appendAll (s : Schema E V) : List (List E × V) → Schema E V × Bool
  | [] => (s, false)
  | (n, ty) :: l =>
    let r := s.append n ty
    if r.2 then r else appendAll r.1 l

/-- The loop of the delete, dispatcher.cpp:744-746. -/
def dropAll (s : Schema E V) (t : Tally E V) : Schema E V := t.foldl (fun s k => s.dropN k.1.1 k.1.2 k.2) s

/-- `wal_success` with `update_catalog`, dispatcher.cpp:515-545, 664-754. -/
def walOk (s : Sys E V C) : Sys E V C :=
  match s.logged with
  | [] => s
  | (c, .insert docs) :: t =>
    let r := appendAll (s.sch c) (docs.flatMap Doc.fields)
    { s with logged := t, sch := set s.sch c r.1, dead := r.2 }
  | (c, .delete) :: t => { s with logged := t, sch := set s.sch c (dropAll (s.sch c) s.slot), slot := [] }
  | (_, .update) :: t => { s with logged := t }

/-- A start: `load_from_memory_storage_result` (dispatcher.cpp:163-177) makes a schema for every collection, the documents are stored by `create_documents`
(executor.cpp:117-131), which tells the dispatcher nothing. -/
def restart (s : Sys E V C) : Sys E V C := ⟨s.store, fun _ => Schema.empty, [], [], [], false⟩

/-- Who goes on. -/
inductive Event (E V C : Type) where
  | exec (c : C) (p : Plan E V)
  | finish
  | walOk
  | restart

def step (s : Sys E V C) (e : Event E V C) : Sys E V C :=
  match e with
  | .restart => restart s
  | .exec c p => if s.dead then s else exec s c p
  | .finish => if s.dead then s else finish s
  | .walOk => if s.dead then s else walOk s

def run (s : Sys E V C) (es : List (Event E V C)) : Sys E V C := es.foldl step s

/-- `get_schema` of a collection, dispatcher.cpp:895-921. -/
def getSchema (s : Sys E V C) (c : C) : List (List E × V) := (s.sch c).latestTypes

end Verif.DocSchema
