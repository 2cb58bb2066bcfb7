import Verif.Node.Spec
/-!
The names of databases and collections in Python: `Client`, `DataBase` and `Collection` objects over one node. The node is the one of
`Verif.Node`: a call sends its request, the actors take turns (`Verif.Node.ask`), and the call returns with the answer. One thread calls.
Names of databases and collections are numbers.
-/
namespace Verif.Py.Names

open Verif.Node (Sys Plan Coll Event run ask init)

/-- `wrapper_database`, integration/python/sql/wrapper_database.hpp:21-34. Of `collections_` only the keys: the order in which an
unordered map gives them is left open, so the list is to be read as a set. -/
structure DbObj where
  db : Nat
  listed : List Nat
deriving DecidableEq, Repr

/-- The objects of a Python program and the node. A client is the keys of `names_`, wrapper_client.hpp:35; a collection object is its
database and name, wrapper_collection.hpp. Objects are numbered as they are made. A program has one client: a second one is a node of
its own, integration/python/sql/spaces.cpp:5-7. -/
structure Prog where
  node : Sys
  client : List Nat
  dbs : List DbObj
  colls : List Coll

/-- A program that has just made its client, with a new directory. -/
def start : Prog := ⟨init, [], [], []⟩

/-- `emplace` of an unordered map: a key that is there stays. -/
def emplace (l : List Nat) (n : Nat) : List Nat := if n ∈ l then l else l ++ [n]

/-- A request and its answer, `send_plan`, integration/cpp/wrapper_dispatcher.cpp:394-406: `none` if it is not answered. Every call has a
new session (wrapper_database.cpp:20, 28), which is free again when it is answered: all are number 0 here. -/
def send (s : Prog) (p : Plan) : Option (Prog × Bool) :=
  match (run s.node (ask 0 p)).answers.find? fun a => a.1 == s.node.next with
  | some a => some ({ s with node := run s.node (ask 0 p) }, a.2.2)
  | none => none

/-- The calls. `restart`: the process ends and a new one makes a client with the same directory; `es` is what the actors do before and
after, see `Verif.Node.Event`. -/
inductive Call where
  | database (d : Nat)
  | collection (h c : Nat)
  | dropCollection (h c : Nat)
  | drop (i : Nat)
  | sql (p : Plan)
  | restart (es : List Event)

/-- What a call gives: a new object, an answer, or nothing as there is no such object. -/
inductive Out where
  | object (i : Nat)
  | answer (ok : Bool)
  | nothing
deriving DecidableEq, Repr

/-- `client[d]`: `get_or_create`, wrapper_client.cpp:25-33. The answer is not looked at. -/
def database (s : Prog) (d : Nat) : Option (Prog × Out) :=
  match send s (.createDb d) with
  | none => none
  | some (t, _) => some ({ t with client := emplace t.client d, dbs := t.dbs ++ [⟨d, []⟩] }, .object t.dbs.length)

/-- `db[c]`: `create`, wrapper_database.cpp:26-34. The answer is not looked at. -/
def collection (s : Prog) (h c : Nat) : Option (Prog × Out) :=
  match s.dbs[h]? with
  | none => some (s, .nothing)
  | some o => match send s (.createColl ⟨o.db, c⟩) with
    | none => none
    | some (t, _) => some ({ t with dbs := t.dbs.set h ⟨o.db, emplace o.listed c⟩, colls := t.colls ++ [⟨o.db, c⟩] }, .object t.colls.length)

/-- `db.drop_collection(c)`, wrapper_database.cpp:17-24: the name goes before the node is asked. -/
def dropCollection (s : Prog) (h c : Nat) : Option (Prog × Out) :=
  match s.dbs[h]? with
  | none => some (s, .nothing)
  | some o => match send { s with dbs := s.dbs.set h ⟨o.db, o.listed.erase c⟩ } (.dropColl ⟨o.db, c⟩) with
    | none => none
    | some (t, ok) => some (t, .answer ok)

/-- `collection.drop()`, wrapper_collection.cpp:284-290. -/
def dropObject (s : Prog) (i : Nat) : Option (Prog × Out) :=
  match s.colls[i]? with
  | none => some (s, .nothing)
  | some x => match send s (.dropColl x) with
    | none => none
    | some (t, ok) => some (t, .answer ok)

/-- `client.execute(query)`, wrapper_client.cpp:46-51, for a query that is the plan `p`. -/
def execute (s : Prog) (p : Plan) : Option (Prog × Out) :=
  match send s p with
  | none => none
  | some (t, ok) => some (t, .answer ok)

/-- One call: `none` if it never returns. -/
def step (s : Prog) : Call → Option (Prog × Out)
  | .database d => database s d
  | .collection h c => collection s h c
  | .dropCollection h c => dropCollection s h c
  | .drop i => dropObject s i
  | .sql p => execute s p
  | .restart es => some (⟨run s.node es, [], [], []⟩, .nothing)

/-- Calls one after the other. -/
def calls (s : Prog) : List Call → Option (Prog × List Out)
  | [] => some (s, [])
  | c :: cs => match step s c with
    | none => none
    | some (t, o) => match calls t cs with
      | none => none
      | some (u, os) => some (u, o :: os)

/-- `client.database_names()`, wrapper_client.cpp:37-43. -/
def databaseNames (s : Prog) : List Nat := s.client

/-- `db.collection_names()`, wrapper_database.cpp:9-15. -/
def collectionNames (s : Prog) (h : Nat) : Option (List Nat) := (s.dbs[h]?).map DbObj.listed

end Verif.Py.Names
