import Verif.Base.Res
/-!
Model of who holds which document (components/physical_plan/collection/operators/operator_insert.cpp, operator_update.cpp,
operator_delete.cpp, scan/full_scan.cpp, scan/primary_key_scan.cpp, services/collection/executor.cpp,
integration/cpp/wrapper_dispatcher.cpp).

A document is an object behind a counted pointer (`document_ptr`).  The storage of a collection, a client that made a
document, and a cursor given to a client hold pointers, and statements pass pointers on.

Simplifications: what a document contains is any type, with its `_id` as a number; a filter, the changes of an UPDATE and
the columns of a SELECT are functions of contents, as the other models define them; the storage, a B-tree by `_id`, is a
list in order of its keys; statements run one after the other; databases are part of the number of a collection.
Counted pointers keep what they point to, so objects are never freed here; a pointer to no object would be `.ub`.
-/
namespace Verif.Share

/-- A `document_ptr`: the number of the object it points to. -/
abbrev Ref := Nat

/-- All documents there are, and who holds them: `document_storage_` of each collection (collection.hpp:35), documents
made by clients, and the documents of cursors (cursor.hpp), of which a null pointer is `none`. -/
structure St (D : Type) where
  heap : List D
  colls : Nat → List (Nat × Ref)
  made : List Ref
  answers : List (List (Option Ref))

/-- Nothing stored, no client. -/
def init {D : Type} : St D := ⟨[], fun _ => [], [], []⟩

/-- A document a client has: the `k`th it made, or document `i` of its answer `a`. -/
inductive Held where
  | made (k : Nat)
  | answer (a i : Nat)
deriving DecidableEq

/-- What clients do.  `p` is a filter, `lim` a limit; `g` makes the rows of a SELECT with columns from the documents
found; `f` are the changes of an UPDATE and whether they changed something; `new` is the document of an upsert. -/
inductive Op (D : Type) where
  | make (d : D)
  | write (h : Held) (f : D → D)
  | insert (c : Nat) (hs : List Held)
  | insertAll (c src : Nat) (p : D → Bool)
  | insertCols (c src : Nat) (p : D → Bool) (g : List D → List D)
  | select (c : Nat) (p : D → Bool) (lim : Option Nat)
  | selectCols (c : Nat) (p : D → Bool) (g : List D → List D)
  | update (c : Nat) (p : D → Bool) (lim : Option Nat) (f : D → D × Bool) (new : Option D)
  | delete (c : Nat) (p : D → Bool) (lim : Option Nat)

variable {D : Type} (idOf : D → Nat)

/-- Reading through pointers (`operator->` of `boost::intrusive_ptr`). -/
def fetch (heap : List D) : List Ref → Res (List (Ref × D))
  | [] => .ok []
  | r :: rs =>
    match heap[r]? with
    | none => .ub
    | some d => (fetch heap rs).map' ((r, d) :: ·)

/-- `insert_or_assign` of the storage, operator_insert.cpp:27: a stored document with the key is replaced. -/
def assign (k : Nat) (r : Ref) : List (Nat × Ref) → List (Nat × Ref)
  | [] => [(k, r)]
  | e :: es => if k < e.1 then (k, r) :: e :: es else if k = e.1 then (k, r) :: es else e :: assign k r es

/-- `find`, operator_delete.cpp:35, primary_key_scan.cpp:14; `at`, executor.cpp:351, 399. -/
def find (k : Nat) : List (Nat × Ref) → Option Ref
  | [] => none
  | e :: es => if e.1 = k then some e.2 else find k es

/-- `erase(it)`, operator_delete.cpp:37. -/
def erase (k : Nat) : List (Nat × Ref) → List (Nat × Ref)
  | [] => []
  | e :: es => if e.1 = k then es else e :: erase k es

/-- A storage in place of another. -/
def setColl (colls : Nat → List (Nat × Ref)) (c : Nat) (l : List (Nat × Ref)) : Nat → List (Nat × Ref) :=
  fun x => if x = c then l else colls x

/-- `make_document` and the fields set in it, document.cpp:918-921: new objects, and pointers to them. -/
def alloc (heap ds : List D) : List D × List Ref := (heap ++ ds, List.range' heap.length ds.length)

/-- The first so many, full_scan.cpp:17-30: a scan stops at its limit. -/
def upTo {α : Type} : Option Nat → List α → List α
  | none, l => l
  | some n, l => l.take n

/-- `full_scan::on_execute_impl`, full_scan.cpp:15-32: the pointers of the storage whose documents the filter takes, in
order; the output has the same pointers. -/
def scan (s : St D) (c : Nat) (p : D → Bool) (lim : Option Nat) : Res (List (Ref × D)) :=
  (fetch s.heap ((s.colls c).map (·.2))).map' fun l => upTo lim (l.filter fun e => p e.2)

/-- The document a client means. -/
def resolve (s : St D) : Held → Res Ref
  | .made k => match s.made[k]? with | some r => .ok r | none => .ub
  | .answer a i =>
    match s.answers[a]? with
    | none => .ub
    | some l => match l[i]? with | some (some r) => .ok r | _ => .ub

/-- The documents of an `insert_many`. -/
def resolveAll (s : St D) : List Held → Res (List Ref)
  | [] => .ok []
  | h :: hs => (resolve s h).bind fun r => (resolveAll s hs).map' (r :: ·)

/-- `primary_key_scan::on_execute_impl`, primary_key_scan.cpp:10-23: whether none of the `_id`s is stored. -/
def allNew (l : List (Nat × Ref)) : List (Ref × D) → Bool
  | [] => true
  | e :: es => (find (idOf e.2) l).isNone && allNew l es

/-- The loop of `operator_insert`, operator_insert.cpp:23-41, when no name is translated: the storage gets the pointers. -/
def insertLoop (l : List (Nat × Ref)) : List (Ref × D) → List (Nat × Ref)
  | [] => l
  | e :: es => insertLoop (assign (idOf e.2) e.1 l) es

/-- `document_storage().at(id)`, executor.cpp:351, 399. -/
def atAll (l : List (Nat × Ref)) : List Nat → Res (List Ref)
  | [] => .ok []
  | k :: ks =>
    match find k l with
    | none => .throws
    | some r => (atAll l ks).map' (r :: ·)

/-- An answer more. -/
def answer (s : St D) (rs : List (Option Ref)) : St D := { s with answers := s.answers ++ [rs] }

/-- The plan of an INSERT, create_plan_insert.cpp:13-28, and its answer, executor.cpp:381-408: if an `_id` is stored
nothing is inserted and the answer is the whole collection. -/
def store (s : St D) (c : Nat) (rs : List Ref) : Res (St D) :=
  (fetch s.heap rs).bind fun es =>
    if allNew idOf (s.colls c) es then
      let l := insertLoop idOf (s.colls c) es
      (atAll l (es.map fun e => idOf e.2)).map' fun out => answer { s with colls := setColl s.colls c l } (out.map some)
    else .ok (answer s ((s.colls c).map fun e => some e.2))

/-- The loop of `operator_update`, operator_update.cpp:77-90: the documents found are changed where they are; the `_id`s
of those that did change. -/
def updateLoop (f : D → D × Bool) (heap : List D) : List Ref → Res (List D × List Nat)
  | [] => .ok (heap, [])
  | r :: rs =>
    match heap[r]? with
    | none => .ub
    | some d =>
      (updateLoop f (heap.set r (f d).1) rs).map' fun x => (x.1, if (f d).2 then idOf (f d).1 :: x.2 else x.2)

/-- `operator_update::on_execute_impl` without FROM, operator_update.cpp:62-91, and `update_document_impl`,
executor.cpp:328-379.  With limit 0 the scan has no output (full_scan.cpp:17-20). -/
def update (s : St D) (c : Nat) (p : D → Bool) (lim : Option Nat) (f : D → D × Bool) (new : Option D) : Res (St D) :=
  if lim = some 0 then .ok (answer s [])
  else (scan s c p lim).bind fun es =>
    if es.isEmpty then
      match new with
      | none => .ok (answer s [])
      | some d =>
        let a := alloc s.heap [d]
        .ok (answer { s with heap := a.1, colls := setColl s.colls c (insertLoop idOf (s.colls c) (a.2.map fun r => (r, d))) }
          (a.2.map some))
    else (updateLoop idOf f s.heap (es.map (·.1))).bind fun x =>
      (atAll (s.colls c) x.2).map' fun out => answer { s with heap := x.1 } (out.map some)

/-- The loop of `operator_delete`, operator_delete.cpp:33-43: the storage, and how many were erased. -/
def deleteLoop (l : List (Nat × Ref)) : List (Ref × D) → List (Nat × Ref) × Nat
  | [] => (l, 0)
  | e :: es =>
    if (find (idOf e.2) l).isSome then
      let x := deleteLoop (erase (idOf e.2) l) es
      (x.1, x.2 + 1)
    else deleteLoop l es

/-- `operator_delete::on_execute_impl` without USING, operator_delete.cpp:31-44, and `delete_document_impl`,
executor.cpp:448-463: the answer has as many null documents as were erased; with limit 0 there is no `modified()`. -/
def delete (s : St D) (c : Nat) (p : D → Bool) (lim : Option Nat) : Res (St D) :=
  if lim = some 0 then .ub
  else (scan s c p lim).map' fun es =>
    let x := deleteLoop idOf (s.colls c) es
    answer { s with colls := setColl s.colls c x.1 } (List.replicate x.2 none)

/-- One call of a client.
`insert`: wrapper_dispatcher.cpp:108-138, the plan gets the pointers of the client.
`insertAll`: INSERT … SELECT *, transform_insert.cpp:43-68 and transform_select.cpp:134-137, a star makes no group, so no
name is translated and the pointers found are stored.
`insertCols`: with columns the group makes new documents (operator_group.cpp:36-66).
`select`: executor.cpp:260-293, the cursor gets the pointers found. -/
def step (s : St D) : Op D → Res (St D)
  | .make d => let a := alloc s.heap [d]; .ok { s with heap := a.1, made := s.made ++ a.2 }
  | .write h f =>
    (resolve s h).bind fun r =>
      match s.heap[r]? with
      | none => .ub
      | some d => .ok { s with heap := s.heap.set r (f d) }
  | .insert c hs => (resolveAll s hs).bind (store idOf s c)
  | .insertAll c src p => (scan s src p none).bind fun es => store idOf s c (es.map (·.1))
  | .insertCols c src p g =>
    (scan s src p none).bind fun es =>
      let a := alloc s.heap (g (es.map (·.2)))
      store idOf { s with heap := a.1 } c a.2
  | .select c p lim => (scan s c p lim).map' fun es => answer s (es.map fun e => some e.1)
  | .selectCols c p g =>
    (scan s c p none).map' fun es =>
      let a := alloc s.heap (g (es.map (·.2)))
      answer { s with heap := a.1 } (a.2.map some)
  | .update c p lim f new => update idOf s c p lim f new
  | .delete c p lim => delete idOf s c p lim

/-- Calls one after the other. -/
def run : St D → List (Op D) → Res (St D)
  | s, [] => .ok s
  | s, o :: os => (step idOf s o).bind fun s' => run s' os

/-- What a client reads in its answer `a`: the contents of the documents at the moment it looks. -/
def readAnswer (s : St D) (a : Nat) : Option (List (Option D)) :=
  (s.answers[a]?).map fun l => l.map fun o => o.bind fun r => s.heap[r]?

/-- What a SELECT without filter would find in a collection. -/
def readColl (s : St D) (c : Nat) : List (Option D) := (s.colls c).map fun e => s.heap[e.2]?

/-- What a client reads in the `k`th document it made. -/
def readMade (s : St D) (k : Nat) : Option D := (s.made[k]?).bind fun r => s.heap[r]?

end Verif.Share
