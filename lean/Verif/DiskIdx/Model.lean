import Verif.IndexDisk.Spec
import Verif.Query.Model
/-!
Model of a collection of documents with one index that is kept on disk: the executor (services/collection/executor.cpp,
create_index.cpp), the index in memory (components/index), the index agent (services/disk/index_agent_disk.cpp), and the
messages between them.

The executor and the index agent are actors: each handles one message at a time, and the messages from one to the other
arrive in the order in which they were sent.  `box` are the messages on the way to the agent, `back` those on the way back.
A schedule is a list of events; nothing is assumed about when an actor runs.

Simplifications: one index on one top level field whose values are a linear order `K` (see C20, C27 for when the comparison
is one); a document is its id and the value of the field, if it has it; the documents of the collection are a list, in
place of a tree by id; the counter of a scan does not overflow (see C20); UPDATE is not modelled here.  The index on disk is
the set of its pairs (`IndexDisk.want`), and `q` is the order in which it returns the rows of a query: C16 says when the
tree on disk behaves like that.
-/
namespace Verif.DiskIdx

open Verif.IndexDisk (Cmp Op want)

variable {K : Type} [LinearOrder K]

abbrev Session := Nat
abbrev Id := Nat

/-- A document. -/
structure Doc (K : Type) where
  id : Id
  key : Option K
deriving DecidableEq, Repr

/-- The messages to the index agent: index_engine.cpp:220-248, index_scan.cpp:65-68, create_index.cpp:53. -/
inductive Msg (K : Type) where
  | insert (s : Session) (k : K) (i : Id)
  | insertMany (s : Session) (l : List (K × Id))
  | remove (s : Session) (k : K) (i : Id)
  | find (s : Session) (k : K) (c : Cmp)

/-- Its replies, index_agent_disk.cpp:75-79, 98-102, 141-146. -/
inductive Reply where
  | done (s : Session)
  | found (s : Session) (ids : List Id)

/-- A plan that waits for the index: a query or a DELETE, over the documents a comparison with the index selects,
executor.cpp:177-183, index_scan.cpp:52-57. -/
structure Plan (K : Type) where
  cmp : Cmp
  val : K
  lim : Int
  deletes : Bool

/-- What a client asks for. -/
inductive Req (K : Type) where
  /-- INSERT of documents -/
  | insert (ds : List (Doc K))
  /-- a query or a DELETE through the index -/
  | scan (p : Plan K)
  /-- a DELETE that selects its documents in another way, by a full scan -/
  | deleteIf (p : Doc K → Bool)

/-- The state: the documents of the collection, the index in memory in the order of its keys, the two queues, the pairs on
disk, the waiting plans (session/session.hpp:44), the answers to queries and the documents written to disk. -/
structure State (K : Type) where
  store : List (Doc K) := []
  mem : List (K × Doc K) := []
  box : List (Msg K) := []
  disk : List (K × Id) := []
  back : List Reply := []
  susp : List (Session × Plan K) := []
  answers : List (Session × List (Doc K)) := []
  saved : List (Doc K) := []

inductive Event (K : Type) where
  | request (s : Session) (r : Req K)
  | agent
  | reply

/-- `document_storage().insert_or_assign`, operator_insert.cpp:27. -/
def assign (d : Doc K) (l : List (Doc K)) : List (Doc K) := l.filter (fun e => e.id ≠ d.id) ++ [d]

/-- `document_storage().erase`, operator_delete.cpp:37. -/
def erase (i : Id) (l : List (Doc K)) : List (Doc K) := l.filter fun e => e.id ≠ i

/-- `storage_.insert`, single_field_index.cpp:32-34: after the entries with an equal key. -/
def mInsert (k : K) (d : Doc K) : List (K × Doc K) → List (K × Doc K)
  | [] => [(k, d)]
  | e :: es => if k < e.1 then (k, d) :: e :: es else e :: mInsert k d es

/-- `storage_.erase(storage_.find(key))`, single_field_index.cpp:42-44: the first entry with the key, whose ever it is;
without one `erase(end())` is undefined. -/
def mErase (k : K) : List (K × Doc K) → Res (List (K × Doc K))
  | [] => .ub
  | e :: es => if e.1 = k then .ok es else (mErase k es).map' (e :: ·)

/-- The ranges of the index for a comparison, one after the other: index_scan.cpp:9-32, single_field_index.cpp:46-59. -/
def ranges (c : Cmp) (k : K) (es : List (K × Doc K)) : List (K × Doc K) :=
  let below := es.takeWhile fun e => decide (e.1 < k)
  let above := es.dropWhile fun e => decide (e.1 ≤ k)
  let equal := (es.dropWhile fun e => decide (e.1 < k)).takeWhile fun e => decide (e.1 ≤ k)
  match c with
  | .eq => equal
  | .ne => below ++ above
  | .gt => above
  | .lt => below
  | .gte => equal ++ above
  | .lte => below ++ equal
  | .other => []

/-- The loop of `search_by_index`, index_scan.cpp:40-49. -/
def searchLoop (lim : Int) : List (K × Doc K) → Nat → List (Doc K)
  | [], _ => []
  | e :: es, n => if Query.limOk lim n then e.2 :: searchLoop lim es (n + 1) else []

/-- `index_scan::on_resume_impl`, index_scan.cpp:84-95; without an output the plan has no documents
(create_index.cpp:91-96). -/
def search (p : Plan K) (es : List (K × Doc K)) : List (Doc K) :=
  if Query.limOk p.lim 0 then searchLoop p.lim (ranges p.cmp p.val es) 0 else []

/-- `index_engine_t::insert_document`, index_engine.cpp:220-233. -/
def idxInsert (s : Session) (d : Doc K) (st : State K) : State K :=
  match d.key with
  | none => st
  | some k => { st with mem := mInsert k d st.mem, box := st.box ++ [.insert s k d.id] }

/-- `index_engine_t::delete_document`, index_engine.cpp:235-248. -/
def idxDelete (s : Session) (d : Doc K) (st : State K) : Res (State K) :=
  match d.key with
  | none => .ok st
  | some k => (mErase k st.mem).map' fun m => { st with mem := m, box := st.box ++ [.remove s k d.id] }

/-- The loop of `operator_insert`, operator_insert.cpp:24-29; the documents are then written to disk, executor.cpp:390-400. -/
def insertAll (s : Session) : List (Doc K) → State K → State K
  | [], st => st
  | d :: ds, st => insertAll s ds (idxInsert s d { st with store := assign d st.store, saved := assign d st.saved })

/-- One document of `operator_delete`, operator_delete.cpp:33-41. -/
def deleteOne (s : Session) (d : Doc K) (st : State K) : Res (State K) :=
  if d.id ∈ st.store.map Doc.id then idxDelete s d { st with store := erase d.id st.store } else .ok st

/-- The loop of `operator_delete`, operator_delete.cpp:33-41. -/
def deleteAll (s : Session) : List (Doc K) → State K → Res (State K)
  | [], st => .ok st
  | d :: ds, st => (deleteOne s d st).bind (deleteAll s ds)

/-- A request reaches the executor, executor.cpp:158-201.  An INSERT sends its document to the disk (393-400), a DELETE that
is executed at once the ids it removed (446-455), and the dispatcher then has them written.  A plan that selects through
the index waits (178-183; `emplace` keeps a plan that waits for the same session).  The client library waits for the answer
of a session before it asks again with it (wrapper_dispatcher.cpp), so a request of a waiting session is left out. -/
def request (s : Session) (r : Req K) (st : State K) : Res (State K) :=
  if s ∈ st.susp.map Prod.fst then .ok st else
  match r with
  | .insert ds => .ok (insertAll s ds st)
  | .scan p => .ok { st with box := st.box ++ [.find s p.val p.cmp], susp := st.susp ++ [(s, p)] }
  | .deleteIf p =>
    let ds := st.store.filter p
    (deleteAll s ds st).map' fun st' => { st' with saved := st'.saved.filter fun e => e.id ∉ ds.map Doc.id }

/-- The index agent handles a message, index_agent_disk.cpp:35-54: `insert_many` is not among its cases and is dropped. -/
def agent (q : List (K × Id) → Cmp → K → List Id) (st : State K) : State K :=
  match st.box with
  | [] => st
  | .insert s k i :: b => { st with box := b, disk := want st.disk (.insert k i), back := st.back ++ [.done s] }
  | .insertMany _ _ :: b => { st with box := b }
  | .remove s k i :: b => { st with box := b, disk := want st.disk (.removePair k i), back := st.back ++ [.done s] }
  | .find s k c :: b => { st with box := b, back := st.back ++ [.found s (q st.disk c k)] }

/-- One id of `sync_index_from_disk`, index_engine.cpp:306-309, single_field_index.cpp:36-40: `storage.find(id)->second` of a
document that is not there, and the value of a field that is not there, are undefined. -/
def syncOne (st : List (Doc K)) (m : List (K × Doc K)) (i : Id) : Res (List (K × Doc K)) :=
  match st.find? fun d => d.id = i with
  | none => .ub
  | some d => match d.key with
    | none => .ub
    | some k => .ok (mInsert k d m)

/-- The loop of `sync_index_from_disk`, index_engine.cpp:306-309. -/
def syncLoop (st : List (Doc K)) : List Id → List (K × Doc K) → Res (List (K × Doc K))
  | [], m => .ok m
  | i :: is, m => (syncOne st m i).bind (syncLoop st is)

/-- The waiting plan is executed, create_index.cpp:89-98: a DELETE removes its documents from the collection and from the
index, and that is all: `delete_document_impl`, which tells the disk (executor.cpp:446-455), is not called. -/
def resume (s : Session) (p : Plan K) (st : State K) : Res (State K) :=
  let ds := search p st.mem
  if p.deletes then (deleteAll s ds st).map' fun st' => { st' with answers := st'.answers ++ [(s, [])] }
  else .ok { st with answers := st.answers ++ [(s, ds)] }

/-- The executor handles a reply: `index_modify_finish` and `index_find_finish`, create_index.cpp:74-100; a session that is
not there (session.hpp:61-64) is undefined. -/
def reply (st : State K) : Res (State K) :=
  match st.back with
  | [] => .ok st
  | .done s :: b => .ok { st with back := b, susp := st.susp.filter fun e => e.1 ≠ s }
  | .found s ids :: b => (syncLoop st.store ids []).bind fun m =>
    match st.susp.find? fun e => e.1 = s with
    | none => .ub
    | some e => (resume s e.2 { st with back := b, mem := m }).map' fun st' =>
        { st' with susp := st'.susp.filter fun e => e.1 ≠ s }

/-- One event. -/
def step (q : List (K × Id) → Cmp → K → List Id) (st : State K) : Event K → Res (State K)
  | .request s r => request s r st
  | .agent => .ok (agent q st)
  | .reply => reply st

/-- A schedule. -/
def run (q : List (K × Id) → Cmp → K → List Id) (st : State K) : List (Event K) → Res (State K)
  | [] => .ok st
  | e :: es => (step q st e).bind fun st' => run q st' es

/-- `create_index_finish` on a collection that has documents, create_index.cpp:30-60, index_engine.cpp:40-55: the index in
memory is filled (for a field that is missing the type of an empty value is read, which is undefined), and the pairs are
sent to the agent in one message. -/
def create (s : Session) (l : List (Doc K)) : Res (State K) :=
  (syncLoop l (l.map Doc.id) []).map' fun m =>
    { store := l, saved := l, mem := m, box := [.insertMany s (l.filterMap fun d => d.key.map fun k => (k, d.id))] }

/-- The process is started again when no statement is running: the documents on disk are loaded and the index is created
again over its directory, dispatcher.cpp:136-164, manager_disk.cpp:369-387.  Each statement ended with a flush up to its
record in the log (dispatcher.cpp:515-536, manager_disk.cpp:258-289), so no record is left to be replayed. -/
def restart (st : State K) : Res (State K) := (create 0 st.saved).map' fun st' => { st' with disk := st.disk }

end Verif.DiskIdx
