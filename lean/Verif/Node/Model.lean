/-!
Model of one running node: the dispatcher, the memory storage, the executor, the log and the disk, and the messages between
them (services/dispatcher/dispatcher.cpp, services/memory_storage/memory_storage.cpp, services/collection/executor.cpp,
services/wal/wal.cpp, services/wal/manager_wal_replicate.cpp, services/disk/manager_disk.cpp, agent_disk.cpp, disk.cpp).

The dispatcher, the executor, the log worker and the disk agent are actors with a mailbox: each handles its messages in order of
arrival, and any of them may run next (`Event`). The memory storage, the manager of the log and the manager of the disk handle
a message inside `enqueue_impl`, under a lock and on the sender's thread (memory_storage.cpp:206-211, manager_wal_replicate.cpp:79-83,
manager_disk.cpp:166-170), so their work is part of the sender's step.

Simplifications:
* names of databases and collections, `_id`s and contents of documents are numbers: the code modelled here only compares names
  and `_id`s and copies contents; the texts of names are in `TableId`, `Metadata`, the documents in `Json`, `DocVal`;
* collections of documents only (no tables with a schema), no secondary indexes, no upsert, no limits;
* a filter is any function of the document and an update any function from the document to its new content (`none`: the document is
  not selected, or the update reports it unmodified): the evaluation of filters and updates is in `Query` and `Update`;
* the log is its list of records: its bytes are in `Wal`; a record is replayed as the plan that was logged;
* the metadata of the disk is written atomically (its bytes are in `Metadata`); a tree of documents is the list of the documents in
  the order written (the trees are in `BTree`), and each `append` and `remove_index` with its `flush` is atomic;
* the schemas computed from inserted documents (`CompSchema`) are left out;
* an exception or undefined behaviour in an actor ends the process (`dead`).
-/
namespace Verif.Node

/-- `collection_full_name_t` (components/base/collection_full_name.hpp:12-52), without uid and schema. -/
structure Coll where
  db : Nat
  name : Nat
deriving DecidableEq, Repr

/-- A document: its `_id` and its content. -/
structure Doc where
  id : Nat
  body : Nat
deriving DecidableEq, Repr

/-- The plans, components/logical_plan/forward.hpp:8-31: the types handled by `execute_plan_finish`, and `find` for an
aggregate without effects. -/
inductive Plan where
  | createDb (d : Nat)
  | dropDb (d : Nat)
  | createColl (c : Coll)
  | dropColl (c : Coll)
  | insert (c : Coll) (docs : List Doc)
  | delete (c : Coll) (p : Doc → Bool)
  | update (c : Coll) (g : Doc → Option Nat)
  | find (c : Coll)

/-- A session: chosen by a client, or made by the replay of a record (dispatcher.cpp:199-240). -/
inductive Sid where
  | client (k : Nat)
  | replay (k : Nat)
deriving DecidableEq, Repr

/-- `session_t`, services/dispatcher/session.hpp:12-46. `serial` is not in the code: it numbers the requests of the clients, to say which
request a plan belongs to. `replay` says that the address is `manager_wal_`. -/
structure Ses where
  serial : Nat
  plan : Plan
  replay : Bool

/-- Messages to the dispatcher: `execute_plan`, `execute_plan_finish` (and `execute_plan_delete_finish`), `wal::success`,
dispatcher.cpp:86-134. -/
inductive DMsg where
  | plan (sid : Sid) (serial : Nat) (p : Plan)
  | finish (sid : Sid) (ok : Bool)
  | walOk (sid : Sid) (id : Nat)

/-- Commands for the disk, services/disk/command.hpp:11-44, and `fix_wal_id`. -/
inductive Cmd where
  | appendDb (d : Nat)
  | appendColl (c : Coll)
  | removeColl (c : Coll)
  | write (c : Coll) (docs : List Doc)
  | remove (c : Coll) (ids : List Nat)
  | fixWal (id : Nat)
deriving DecidableEq, Repr

/-- A record of the log: `record_t`, services/wal/record.hpp:9-18. `serial` as in `Ses`. -/
structure Rec where
  id : Nat
  serial : Nat
  plan : Plan

/-- The disk: METADATA, the trees of the collections and WAL_ID, services/disk/disk.hpp:22-60. -/
structure Disk where
  dbs : List Nat
  colls : Coll → Bool
  trees : Coll → Option (List Doc)
  wal : Nat

/-- The catalog: the namespaces and their computing tables, components/catalog/catalog.hpp:8-71. -/
structure Cat where
  dbs : Nat → Bool
  colls : Coll → Bool

/-- The whole node. `mem` gives the contexts of the collections with the number of the incarnation (`gen`, in place of the address of the
context); `open'` the requests the clients wait for; `answers` and `next` only record what happened. -/
structure Sys where
  disp : List DMsg
  exec : List (Sid × Nat × Plan)
  wal : List (Sid × Nat × Plan)
  agent : List Cmd
  sessions : Sid → Option Ses
  cat : Cat
  mem : Coll → Option (Nat × List Doc)
  gen : Nat
  cmds : Sid → List Cmd
  lastWal : Nat
  loading : Nat
  log : List Rec
  disk : Disk
  open' : Sid → Option (Nat × Plan)
  answers : List (Nat × Plan × Bool)
  next : Nat
  dead : Bool

/-- Assignment to one key of a map. -/
def set {K V : Type} [DecidableEq K] (m : K → V) (k : K) (v : V) : K → V := fun x => if x = k then v else m x

/-- A new node: nothing on the disk, nothing in the log. -/
def init : Sys where
  disp := []
  exec := []
  wal := []
  agent := []
  sessions := fun _ => none
  cat := ⟨fun _ => false, fun _ => false⟩
  mem := fun _ => none
  gen := 0
  cmds := fun _ => []
  lastWal := 0
  loading := 0
  log := []
  disk := ⟨[], fun _ => false, fun _ => none, 0⟩
  open' := fun _ => none
  answers := []
  next := 0
  dead := false

/-! ## The storage of documents -/

/-- `find(id) != end()` of the storage. -/
def has (id : Nat) (store : List Doc) : Bool := store.any fun d => d.id == id

/-- `insert_or_assign` of the storage, operator_insert.cpp:27: ordered by `_id`. -/
def assign (d : Doc) : List Doc → List Doc
  | [] => [d]
  | e :: es => if d.id < e.id then d :: e :: es else if d.id = e.id then d :: es else e :: assign d es

/-- `emplace` of the storage, executor.cpp:127-129. -/
def emplace (store : List Doc) (d : Doc) : List Doc := if has d.id store then store else assign d store

/-- The insert, primary_key_scan.cpp:10-23 and operator_insert.cpp:23-41: refused as a whole if one `_id` is stored (the whole batch
goes to the disk otherwise). -/
def insertDocs (store docs : List Doc) : List Doc × List Doc :=
  if docs.any fun d => has d.id store then (store, []) else (docs.foldl (fun s d => assign d s) store, docs)

/-- The delete, operator_delete.cpp:31-42: the storage and the removed `_id`s. -/
def deleteDocs (store : List Doc) (p : Doc → Bool) : List Doc × List Nat :=
  (store.filter fun d => !p d, (store.filter p).map Doc.id)

/-- The update of one document, operator_update.cpp:73-84. -/
def updateDoc (g : Doc → Option Nat) (d : Doc) : Doc := match g d with
  | some b => ⟨d.id, b⟩
  | none => d

/-- The update, operator_update.cpp:56-86: the storage and the modified `_id`s. -/
def updateDocs (store : List Doc) (g : Doc → Option Nat) : List Doc × List Nat :=
  (store.map (updateDoc g), (store.filter fun d => (g d).isSome).map Doc.id)

/-! ## The catalog -/

/-- `create_namespace`, namespace_storage.cpp:8-22. -/
def Cat.createNs (c : Cat) (d : Nat) : Cat := if c.dbs d then c else { c with dbs := set c.dbs d true }

/-- `drop_namespace`, namespace_storage.cpp:24-31: the tables of the namespace go with it. -/
def Cat.dropNs (c : Cat) (d : Nat) : Cat := ⟨set c.dbs d false, fun x => if x.db = d then false else c.colls x⟩

/-- `table_computes`, catalog.cpp:117-119, 148-156. -/
def Cat.computes (c : Cat) (x : Coll) : Bool := c.dbs x.db && c.colls x

/-- `create_computing_table`, catalog.cpp:89-101; its error is dropped, dispatcher.cpp:155-156, 677-678. -/
def Cat.createTable (c : Cat) (x : Coll) : Cat := if c.dbs x.db && !c.colls x then { c with colls := set c.colls x true } else c

/-- `drop_computing_table`, catalog.cpp:105, 121-129. -/
def Cat.dropTable (c : Cat) (x : Coll) : Cat := if c.computes x then { c with colls := set c.colls x false } else c

/-- The checks of `execute_plan`, dispatcher.cpp:257-284: `check_namespace_exists` (564-570), `check_collectction_exists` (572-587), which
is an error too if the database is missing, and `check_collections_format_` (588-656). -/
def admit (c : Cat) : Plan → Bool
  | .createDb d => !c.dbs d
  | .dropDb d => c.dbs d
  | .createColl x => !c.computes x
  | .dropColl x => c.computes x
  | .insert x _ => c.computes x
  | .delete x _ => c.computes x
  | .update x _ => c.computes x
  | .find x => c.computes x

/-! ## The manager of the disk -/

/-- `append_command`, manager_disk.cpp:196-256. -/
def addCmd (s : Sys) (sid : Sid) (c : Cmd) : Sys := { s with cmds := set s.cmds sid (s.cmds sid ++ [c]) }

/-- `flush`, manager_disk.cpp:258-290, without indexes. -/
def flush (s : Sys) (sid : Sid) (id : Nat) : Sys :=
  { s with agent := s.agent ++ s.cmds sid ++ [.fixWal id], cmds := set s.cmds sid [] }

/-! ## The dispatcher -/

/-- The answer to the client, wrapper_dispatcher.cpp:331-336 and 362-373, and `remove_session`. -/
def reply (s : Sys) (sid : Sid) (ok : Bool) : Sys :=
  match s.open' sid with
  | some (n, p) => { s with open' := set s.open' sid none, answers := (n, p, ok) :: s.answers, sessions := set s.sessions sid none }
  | none => { s with sessions := set s.sessions sid none }

/-- `update_catalog`, dispatcher.cpp:664-754. An insert looks up the schema of the collection: `get_table_schema` of a missing collection
dereferences `end()` or throws. -/
def updateCat (s : Sys) : Plan → Sys
  | .createDb d => { s with cat := s.cat.createNs d }
  | .dropDb d => { s with cat := s.cat.dropNs d }
  | .createColl x => { s with cat := s.cat.createTable x }
  | .dropColl x => { s with cat := s.cat.dropTable x }
  | .insert x _ => if s.cat.computes x then s else { s with dead := true }
  | .delete _ _ => s
  | .update _ _ => s
  | .find _ => s

/-- `wal_success`, dispatcher.cpp:515-545. -/
def walSuccess (s : Sys) (sid : Sid) (id : Nat) : Sys :=
  match s.sessions sid with
  | none => flush s sid id
  | some ses =>
    let u := updateCat s ses.plan
    if u.dead then u
    else
      let t := flush u sid id
      if ses.replay then t else reply t sid true

/-- The end of `execute_plan_finish`, dispatcher.cpp:453-463, and `load_from_wal_in_progress` (548-560). -/
def done (s : Sys) (sid : Sid) (ses : Ses) (ok : Bool) : Sys :=
  if ses.replay then { s with loading := s.loading - 1 } else reply s sid ok

/-- A plan that is logged, dispatcher.cpp:322-332, 350-360 and alike: sent to the log, or, if it comes from the log, finished. -/
def logged (s : Sys) (sid : Sid) (ses : Ses) : Sys :=
  if ses.replay then done (walSuccess s sid s.lastWal) sid ses true
  else { s with wal := s.wal ++ [(sid, ses.serial, ses.plan)] }

/-- `execute_plan_finish`, dispatcher.cpp:300-463. -/
def finishPlan (s : Sys) (sid : Sid) (ok : Bool) : Sys :=
  match s.sessions sid with
  | none => { s with dead := true }
  | some ses =>
    if ok then
      match ses.plan with
      | .createDb d => logged (addCmd s sid (.appendDb d)) sid ses
      | .dropDb d => done { s with cat := s.cat.dropNs d } sid ses true
      | .createColl c => logged (addCmd s sid (.appendColl c)) sid ses
      | .dropColl c => logged (addCmd s sid (.removeColl c)) sid ses
      | .insert _ _ => logged s sid ses
      | .delete _ _ => logged s sid ses
      | .update _ _ => logged s sid ses
      | .find _ => done s sid ses true
    else done s sid ses false

/-- The answer of the memory storage, put into the mailbox of the dispatcher. -/
def post (s : Sys) (sid : Sid) (ok : Bool) : Sys := { s with disp := s.disp ++ [.finish sid ok] }

/-- `execute_plan_impl`, memory_storage.cpp:283-314: `collections_.at` throws if the collection is missing. -/
def toExec (s : Sys) (sid : Sid) (p : Plan) (c : Coll) : Sys :=
  match s.mem c with
  | none => { s with dead := true }
  | some (g, _) => { s with exec := s.exec ++ [(sid, g, p)] }

/-- `memory_storage_t::execute_plan`, memory_storage.cpp:114-137: `create_database_` (213-222), `drop_database_` (224-233) touch only the
set of names; `create_collection_` (235-265) keeps a stored collection (`emplace`); `drop_collection_` (267-281). -/
def memory (s : Sys) (sid : Sid) (p : Plan) : Sys :=
  match p with
  | .createDb _ => post s sid true
  | .dropDb _ => post s sid true
  | .createColl c => match s.mem c with
    | some _ => post s sid true
    | none => post { s with mem := set s.mem c (some (s.gen, [])), gen := s.gen + 1 } sid true
  | .dropColl c => match s.mem c with
    | some _ => post { s with mem := set s.mem c none } sid true
    | none => { s with dead := true }
  | .insert c _ => toExec s sid p c
  | .delete c _ => toExec s sid p c
  | .update c _ => toExec s sid p c
  | .find c => toExec s sid p c

/-- `make_session`, session.hpp:63-66: `emplace` keeps a session that exists. -/
def makeSession (s : Sys) (sid : Sid) (ses : Ses) : Sys :=
  match s.sessions sid with
  | some _ => s
  | none => { s with sessions := set s.sessions sid (some ses) }

/-- `dispatcher_t::execute_plan`, dispatcher.cpp:247-298. -/
def execPlan (s : Sys) (sid : Sid) (ses : Ses) : Sys :=
  let t := makeSession s sid ses
  if admit t.cat ses.plan then memory t sid ses.plan else finishPlan t sid false

/-- One message of the dispatcher, dispatcher.cpp:86-134. -/
def dispStep (s : Sys) : Sys :=
  match s.disp with
  | [] => s
  | m :: ms =>
    let t := { s with disp := ms }
    match m with
    | .plan sid n p => execPlan t sid ⟨n, p, false⟩
    | .finish sid ok => finishPlan t sid ok
    | .walOk sid id => walSuccess t sid id

/-! ## The executor -/

/-- The effect of a plan on the documents of its collection and the command for the disk: `insert_document_impl`, executor.cpp:381-408,
`delete_document_impl` (428-463) and `update_document_impl` (332-376), which has the disk remove the updated documents. -/
def runPlan (store : List Doc) : Plan → List Doc × List Cmd
  | .insert c docs => ((insertDocs store docs).1, [.write c (insertDocs store docs).2])
  | .delete c p => ((deleteDocs store p).1, [.remove c (deleteDocs store p).2])
  | .update c g => ((updateDocs store g).1, [.remove c (updateDocs store g).2])
  | _ => (store, [])

/-- The collection of a plan for the executor. -/
def Plan.coll : Plan → Option Coll
  | .insert c _ => some c
  | .delete c _ => some c
  | .update c _ => some c
  | .find c => some c
  | _ => none

/-- One message of the executor, executor.cpp:86-115, 164-219, and the finish through the memory storage (memory_storage.cpp:316-342). The message holds
the address of the context: if the collection was dropped meanwhile the context is freed (memory_storage.cpp:279). -/
def execStep (s : Sys) : Sys :=
  match s.exec with
  | [] => s
  | (sid, g, p) :: ms =>
    let t := { s with exec := ms }
    match p.coll with
    | none => { t with dead := true }
    | some c => match s.mem c with
      | none => { t with dead := true }
      | some (g', store) =>
        if g' = g then
          let r := runPlan store p
          post { t with mem := set t.mem c (some (g, r.1)), cmds := set t.cmds sid (t.cmds sid ++ r.2) } sid true
        else { t with dead := true }

/-! ## The log -/

/-- The last id of the log, `init_id`, wal.cpp:353-361. -/
def lastId (log : List Rec) : Nat := match log.getLast? with
  | some r => r.id
  | none => 0

/-- One message of the log worker, wal.cpp:209-351: `write_data_` then `send_success`. -/
def walStep (s : Sys) : Sys :=
  match s.wal with
  | [] => s
  | (sid, n, p) :: ms =>
    { s with wal := ms, log := s.log ++ [⟨lastId s.log + 1, n, p⟩], disp := s.disp ++ [.walOk sid (lastId s.log + 1)] }

/-! ## The disk agent -/

/-- `save_document`, disk.cpp:44-60. -/
def Disk.save (k : Disk) (c : Coll) (d : Doc) : Disk :=
  match k.trees c with
  | some l => { k with trees := set k.trees c (some (l ++ [d])) }
  | none => { k with dbs := if k.dbs.contains c.db then k.dbs else k.dbs ++ [c.db],
                     colls := set k.colls c true, trees := set k.trees c (some [d]) }

/-- One message of the disk agent, agent_disk.cpp:97-151, a document at a time; `remove_document` (disk.cpp:76-81) throws if there is no
tree. `append_collection` is disk.cpp:121-129 with metadata.cpp:60-73, `remove_collection` disk.cpp:131-135, `fix_wal_id`
disk.cpp:137-141. -/
def agentStep (s : Sys) : Sys :=
  match s.agent with
  | [] => s
  | c :: cs =>
    let t := { s with agent := cs }
    match c with
    | .appendDb d => { t with disk := { s.disk with dbs := if s.disk.dbs.contains d then s.disk.dbs else s.disk.dbs ++ [d] } }
    | .appendColl x => { t with disk := { s.disk with
        trees := match s.disk.trees x with | some _ => s.disk.trees | none => set s.disk.trees x (some []),
        colls := if s.disk.dbs.contains x.db then set s.disk.colls x true else s.disk.colls } }
    | .removeColl x => { t with disk := { s.disk with trees := set s.disk.trees x none, colls := set s.disk.colls x false } }
    | .write _ [] => t
    | .write x (d :: ds) => { t with disk := s.disk.save x d, agent := .write x ds :: cs }
    | .remove _ [] => t
    | .remove x (i :: is) => match s.disk.trees x with
      | none => { t with dead := true }
      | some l => { t with disk := { s.disk with trees := set s.disk.trees x (some (l.filter fun d => d.id != i)) }, agent := .remove x is :: cs }
    | .fixWal id => { t with disk := { s.disk with wal := id } }

/-! ## The start -/

/-- The tree of a collection after a start: those of the metadata, disk.cpp:34-41. -/
def Disk.reopen (k : Disk) : Disk :=
  { k with trees := fun c => if k.dbs.contains c.db && k.colls c then some ((k.trees c).getD []) else none,
           colls := fun c => k.dbs.contains c.db && k.colls c }

/-- The documents loaded, agent_disk.cpp:85-95, memory_storage.cpp:171-204 and `create_documents`, executor.cpp:117-131. -/
def loadDocs (l : List Doc) : List Doc := l.foldl emplace []

/-- The memory after the load. -/
def loadMem (k : Disk) : Coll → Option (Nat × List Doc) := fun c => (k.trees c).map fun l => (0, loadDocs l)

/-- The records after the one noted on the disk, `wal_replicate_t::load`, wal.cpp:191-204. -/
def pending (s : Sys) : List Rec := s.log.filter fun r => s.disk.wal < r.id

/-- The loop of `load_from_wal_result`, dispatcher.cpp:197-244: every record is handed to `execute_plan`, from a new session. -/
def replayFrom (s : Sys) (k : Nat) : List Rec → Sys
  | [] => s
  | r :: rs => if s.dead then s else replayFrom (execPlan s (.replay k) ⟨r.serial, r.plan, true⟩) (k + 1) rs

/-- A crash and a start: only the log and the disk survive. `load_from_disk_result` (dispatcher.cpp:143-161) stops if the disk has no
database; otherwise the collections are loaded, the catalog is filled (163-177) and the rest of the log is replayed. The start is
one step: no other message is under way. -/
def restart (s : Sys) : Sys :=
  let k := s.disk.reopen
  let base := { init with log := s.log, disk := k, answers := s.answers, next := s.next }
  if k.dbs = [] then base
  else
    let t := { base with mem := loadMem k, gen := 1, cat := ⟨k.dbs.contains, k.colls⟩,
                         loading := (pending s).length, lastWal := lastId (pending s) }
    replayFrom t 0 (pending s)

/-! ## The node -/

/-- A client sends a plan, wrapper_dispatcher.cpp:394-406; `init` (353-360) gives it a session no other request waits for. A client first
calls `load` and waits for its end (wrapper_dispatcher.cpp:70-76, wrapper_client.cpp:22), so there are no requests before. -/
def request (s : Sys) (k : Nat) (p : Plan) : Sys :=
  if s.loading = 0 then
    match s.open' (.client k) with
    | some _ => s
    | none => { s with open' := set s.open' (.client k) (some (s.next, p)), next := s.next + 1,
                       disp := s.disp ++ [.plan (.client k) s.next p] }
  else s

/-- What happens next: a client sends a request, an actor handles its next message, or the process ends and starts again. -/
inductive Event where
  | request (k : Nat) (p : Plan)
  | disp
  | exec
  | wal
  | agent
  | crash

/-- One step. A process that ended only restarts. -/
def step (s : Sys) (e : Event) : Sys :=
  match e with
  | .crash => restart s
  | .request k p => if s.dead then s else request s k p
  | .disp => if s.dead then s else dispStep s
  | .exec => if s.dead then s else execStep s
  | .wal => if s.dead then s else walStep s
  | .agent => if s.dead then s else agentStep s

/-- A schedule. -/
def run (s : Sys) (es : List Event) : Sys := es.foldl step s

end Verif.Node
