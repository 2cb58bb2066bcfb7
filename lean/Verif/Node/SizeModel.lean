import Verif.Node.Model
/-!
How many documents a collection has: `size` of the C++ interface and `len` of a collection in Python, beside everything else a node does.

Simplifications:
* collections of documents, as in `Node/Model`; what `calculate_size` gives for a table is the subject of C66;
* the mailbox of the dispatcher holds these messages too, in the order of arrival; here they wait apart from the others, and any may be next. This
  allows more orders than the code does. The schedules of the counterexamples are orders of arrival;
* requests are numbered; the session of a request is its number (sessions are unique, C52).
-/
namespace Verif.Node

/-- A node, and what concerns sizes: the requests and the counts under way to the dispatcher, its sessions for them, whether the executor is in the
middle of its next message, and whether the process ended over a size. `asked` and `got` record the requests and the answers. -/
structure Sz where
  node : Sys
  busy : Bool
  reqs : List (Nat × Coll)
  fins : List (Nat × Nat)
  ses : List Nat
  ended : Bool
  asked : List Coll
  got : List (Nat × Nat)

/-- A new node. -/
def Sz.init : Sz := ⟨Node.init, false, [], [], [], false, [], []⟩

/-- `wrapper_dispatcher_t::size`, integration/cpp/wrapper_dispatcher.cpp:252-264, manager_dispatcher_t::size, dispatcher.cpp:878-893;
`len` in Python, integration/python/sql/wrapper_collection.cpp:38-42. -/
def Sz.ask (s : Sz) (c : Coll) : Sz := { s with reqs := s.reqs ++ [(s.asked.length, c)], asked := s.asked ++ [c] }

/-- The answer and the end of the session, dispatcher.cpp:496-501. -/
def Sz.answer (s : Sz) (n a : Nat) : Sz := { s with got := s.got ++ [(n, a)], ses := s.ses.filter (· ≠ n) }

/-- The process ends. -/
def Sz.die (s : Sz) : Sz := { s with ended := true }

/-- The executor is in the middle of a write to the documents of a collection (executor.cpp:86-115, 164-219). -/
def Sz.writing (s : Sz) (c : Coll) : Bool :=
  s.busy && match s.node.exec with
    | (_, _, .insert x _) :: _ => x == c
    | (_, _, .delete x _) :: _ => x == c
    | (_, _, .update x _) :: _ => x == c
    | _ => false

/-- `memory_storage_t::size`, memory_storage.cpp:139-169, on the thread of the dispatcher: `collections_.at` throws if there is none, which ends the
process; going through the documents while the executor changes them is undefined. A collection that is marked as dropped is no longer in
`collections_` (267-281). The count goes to the dispatcher. -/
def Sz.count (s : Sz) (n : Nat) (c : Coll) : Sz :=
  match s.node.mem c with
  | none => s.die
  | some (_, docs) => if s.writing c then s.die else { s with fins := s.fins ++ [(n, docs.length)] }

/-- `dispatcher_t::size`, dispatcher.cpp:473-492. A collection that is not in the catalog is answered by the error (its size is 0), and then
counted nevertheless. -/
def Sz.take (s : Sz) : Sz :=
  match s.reqs with
  | [] => s
  | (n, c) :: rs =>
    let t := { s with reqs := rs, ses := n :: s.ses }
    if t.node.cat.computes c then t.count n c else (t.answer n 0).count n c

/-- `dispatcher_t::size_finish`, dispatcher.cpp:494-502: `find_session` dereferences `end()` if the session is gone (session.hpp:73-77). -/
def Sz.finish (s : Sz) : Sz :=
  match s.fins with
  | [] => s
  | (n, a) :: fs =>
    let t := { s with fins := fs }
    if n ∈ t.ses then t.answer n a else t.die

/-- What happens next. `begin`: the executor takes up its next message; `.node .exec` is its end. -/
inductive SzEvent where
  | node (e : Event)
  | begin
  | ask (c : Coll)
  | take
  | finish

/-- A process that runs. -/
def Sz.runs (s : Sz) : Bool := !s.ended && !s.node.dead

/-- A step of the node itself. A crash takes all messages. -/
def Sz.other (s : Sz) (e : Event) : Sz :=
  match e with
  | .crash => { s with node := Node.step s.node .crash, busy := false, reqs := [], fins := [], ses := [], ended := false }
  | .exec => if s.ended then s else { s with node := Node.step s.node .exec, busy := false }
  | e => if s.ended then s else { s with node := Node.step s.node e }

/-- One step. A process that ended only restarts. -/
def Sz.step (s : Sz) : SzEvent → Sz
  | .node e => s.other e
  | .begin => if s.runs && !s.node.exec.isEmpty then { s with busy := true } else s
  | .ask c => if s.runs then s.ask c else s
  | .take => if s.runs then s.take else s
  | .finish => if s.runs then s.finish else s

/-- A schedule. -/
def Sz.run (s : Sz) (es : List SzEvent) : Sz := es.foldl Sz.step s

end Verif.Node
