import Verif.Base.Res
import Verif.Table.Column
/-!
Model of which indexes there are: the index engine of each collection (components/index/index_engine.cpp), the agents of the
indexes on disk and the file that lists them (services/disk/manager_disk.cpp), through CREATE INDEX, DROP INDEX, CREATE and
DROP of collections, INSERT, restarts and crashes.

Simplifications: statements run one after the other, each to its end; names and lists of keys are compared only for equality
and are numbers here; an entry of the file is read back as it was written (C33 for the plan in it, and the length before it);
what is in an index is not modelled here (C77).
-/
namespace Verif.IdxReg

abbrev Name := Nat
abbrev Keys := Nat

/-- A collection: database and name. -/
structure Coll where
  db : Nat
  name : Nat
deriving DecidableEq, Repr

/-- An index in the engine of a collection, index.hpp:60-90. -/
structure Entry where
  coll : Coll
  name : Name
  keys : Keys
  disk : Bool
deriving DecidableEq, Repr

/-- An agent: the name of its index, the collection it points to (index_agent_disk.hpp, `collection_`) and the flag
`is_dropped_`. `ctx` is the number of the object it points to. -/
structure Agent where
  name : Name
  coll : Coll
  ctx : Nat
  dropped : Bool
deriving DecidableEq, Repr

/-- What the file of indexes says of one, node_create_index.cpp. -/
structure Def where
  name : Name
  keys : Keys
  coll : Coll
deriving DecidableEq, Repr

/-- The state.  `onDisk`: the database is configured to write to disk (`manager_disk_t`, else `manager_disk_empty_t`); `colls`:
the collections with the number of the object for each; `eng`: `storage_` of all engines; `used`: `mapper_` of all engines;
`agents`: `index_agents_`; `file`: the file of indexes. -/
structure State where
  onDisk : Bool
  colls : List (Coll × Nat) := []
  next : Nat := 0
  eng : List Entry := []
  used : List (Coll × Keys × Name) := []
  agents : List Agent := []
  file : List Def := []
deriving DecidableEq, Repr

/-- A client is told that it worked, or that it did not. -/
inductive Reply where
  | ok
  | error
deriving DecidableEq, Repr

/-- What may happen. -/
inductive Event where
  | mkColl (c : Coll)
  | rmColl (c : Coll)
  | mkIndex (d : Def)
  | rmIndex (c : Coll) (n : Name)
  /-- INSERT of a document that has all indexed fields -/
  | insert (c : Coll)
  | restart
  /-- the process ends within DROP INDEX when the file was emptied and `k` entries were written again; it is started again -/
  | crashRm (c : Coll) (n : Name) (k : Nat)
deriving DecidableEq, Repr

/-- `index_engine_t::has_index`, index_engine.cpp:218. -/
def has (eng : List Entry) (c : Coll) (n : Name) : Bool := eng.any fun e => e.coll = c && e.name = n

/-- `index_engine_t::add_index`, index_engine.cpp:163-171: `mapper_.emplace` keeps an index that is there for the keys. -/
def addIndex (d : Def) (st : State) : State :=
  { st with
    eng := st.eng ++ [⟨d.coll, d.name, d.keys, false⟩]
    used := if st.used.any (fun u => u.1 = d.coll && u.2.1 = d.keys) then st.used else st.used ++ [(d.coll, d.keys, d.name)] }

/-- The first half of `operator_add_index`, operator_add_index.cpp:27-33: the index is made in the engine unless one with the
name is there; in that case its number is `INDEX_ID_UNDEFINED`. -/
def ensure (d : Def) (st : State) : State := if has st.eng d.coll d.name then st else addIndex d st

/-- `create_index_finish`, create_index.cpp:31-38, 291-297 of index_engine.cpp: `index_to_mapper_.find(id)->second` for an
undefined number is undefined; else the index gets the address of its agent, which is empty when nothing is written to disk. -/
def finish (was : Bool) (d : Def) (st : State) : Res State :=
  if was then .ub else
  .ok { st with eng := st.eng.map fun e => if e.coll = d.coll && e.name = d.name then { e with disk := st.onDisk } else e }

/-- An agent of that name that was not dropped, manager_disk.cpp:297. -/
def taken (agents : List Agent) (n : Name) : Bool := agents.any fun a => a.name = n && !a.dropped

/-- CREATE INDEX on a collection that is there: `operator_add_index` and `create_index_agent`, manager_disk.cpp:292-327, and its
reply.  When the name is taken the client is told so; the index that was made in the engine stays.  `manager_disk_empty_t`
(manager_disk.cpp:531-542) always reports success. -/
def createIndex (d : Def) (ctx : Nat) (st : State) : Res (State × Reply) :=
  let was := has st.eng d.coll d.name
  let st1 := ensure d st
  if !st.onDisk then (finish was d st1).map' (·, .ok)
  else if taken st1.agents d.name then .ok (st1, .error)
  else (finish was d { st1 with
      agents := st1.agents.filter (fun a => a.name ≠ d.name) ++ [⟨d.name, d.coll, ctx, false⟩]
      file := st1.file ++ [d] }).map' (·, .ok)

/-- CREATE INDEX; a collection that is not there is refused, dispatcher.cpp:264-330. -/
def mkIndex (d : Def) (st : State) : Res (State × Reply) :=
  match st.colls.find? fun p => p.1 = d.coll with
  | none => .ok (st, .error)
  | some p => createIndex d p.2 st

/-- `index_engine_t::drop_index`, index_engine.cpp:177-186: the entry for the keys goes too, whose ever it is. -/
def dropEntry (e : Entry) (st : State) : State :=
  { st with
    eng := st.eng.filter fun x => ¬ (x.coll = e.coll ∧ x.name = e.name)
    used := st.used.filter fun u => ¬ (u.1 = e.coll ∧ u.2.1 = e.keys) }

/-- `drop_index_agent`, manager_disk.cpp:329-346, index_agent_disk.cpp:62-71: the agent is marked, and every entry of the name
is taken from the file (`remove_index_impl`, 442-456). -/
def dropAgent (n : Name) (st : State) : State :=
  { st with
    agents := st.agents.map fun a => if a.name = n then { a with dropped := true } else a
    file := st.file.filter fun d => d.name ≠ n }

/-- DROP INDEX, operator_drop_index.cpp:28-55. -/
def rmIndex (c : Coll) (n : Name) (st : State) : State × Reply :=
  match st.eng.find? fun e => e.coll = c && e.name = n with
  | none => (st, .error)
  | some e => (dropEntry e (if e.disk then (if st.agents.any fun a => a.name = n then dropAgent n st else st) else st), .ok)

/-- CREATE of a collection, memory_storage.cpp:228-265. -/
def mkColl (c : Coll) (st : State) : State × Reply :=
  if c ∈ st.colls.map Prod.fst then (st, .error) else ({ st with colls := st.colls ++ [(c, st.next)], next := st.next + 1 }, .ok)

/-- The agents that `flush` drops with a collection, manager_disk.cpp:263-283: those whose collection has the name, in
whichever database. -/
def dropAgents (c : Coll) (st : State) : State :=
  if st.agents.any fun a => a.coll.name = c.name then
    { st with
      agents := st.agents.map fun a => if a.coll.name = c.name then { a with dropped := true } else a
      file := st.file.filter fun d => d.coll.name ≠ c.name }
  else st

/-- DROP of a collection: `drop_collection_` destroys the collection with its engine, memory_storage.cpp:267-281; then `flush`
asks every agent for the name of its collection (index_agent_disk.cpp:59), which is undefined when that was destroyed. -/
def rmColl (c : Coll) (st : State) : Res (State × Reply) :=
  if c ∈ st.colls.map Prod.fst then
    let st1 := { st with
      colls := st.colls.filter fun p => p.1 ≠ c
      eng := st.eng.filter fun e => e.coll ≠ c
      used := st.used.filter fun u => u.1 ≠ c }
    if !st.onDisk then .ok (st1, .ok)
    else if st1.agents.any fun a => a.ctx ∉ st1.colls.map Prod.snd then .ub
    else .ok (dropAgents c st1, .ok)
  else .ok (st, .error)

/-- INSERT of a document with all fields: the key is sent to the agent of each index on disk (index_engine.cpp:220-233), which
writes it to its tree; a dropped agent has none (index_disk.cpp:162-165), and that is undefined. -/
def insert (c : Coll) (st : State) : Res State :=
  if (st.eng.filter fun e => e.coll = c && e.disk).all fun e => taken st.agents e.name then .ok st else .ub

/-- `load_indexes_impl`, manager_disk.cpp:388-404: every entry of the file is created again; the session is a new one, so that
`create_index_agent` writes it to the file once more (manager_disk.cpp:316). -/
def reload : List Def → State → Res State
  | [], st => .ok st
  | d :: ds, st => (mkIndex d st).bind fun r => reload ds r.1

/-- The process is started with what is on disk. -/
def restart (st : State) : Res State :=
  if st.onDisk then reload st.file { onDisk := true, colls := st.colls.map Prod.fst |>.zipIdx, next := st.colls.length, file := st.file }
  else .ok { onDisk := false }

/-- The process ends within `remove_index_impl`, manager_disk.cpp:442-456: the file was emptied and some of its entries were
written again. -/
def crashRm (c : Coll) (n : Name) (k : Nat) (st : State) : Res State :=
  match st.eng.find? fun e => e.coll = c && e.name = n with
  | none => restart st
  | some e => restart (if e.disk then { st with file := (st.file.filter fun d => d.name ≠ n).take k } else st)

/-- One event, with the reply to the client where there is one. -/
def step (st : State) : Event → Res (State × Option Reply)
  | .mkColl c => .ok ((mkColl c st).1, some (mkColl c st).2)
  | .rmColl c => (rmColl c st).map' fun r => (r.1, some r.2)
  | .mkIndex d => (mkIndex d st).map' fun r => (r.1, some r.2)
  | .rmIndex c n => .ok ((rmIndex c n st).1, some (rmIndex c n st).2)
  | .insert c => (insert c st).map' (·, none)
  | .restart => (restart st).map' (·, none)
  | .crashRm c n k => (crashRm c n k st).map' (·, none)

/-- A history, with the replies. -/
def run (st : State) : List Event → Res (State × List (Option Reply))
  | [] => .ok (st, [])
  | e :: es => (step st e).bind fun r => (run r.1 es).map' fun s => (s.1, r.2 :: s.2)

end Verif.IdxReg
