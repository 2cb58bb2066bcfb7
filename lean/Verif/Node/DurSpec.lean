import Verif.Node.Spec
/-!
Specification of durability: collections as maps from `_id` to content, what a request does to them, and which states have
everything on the disk.
-/
namespace Verif.Node

/-- The content stored under an `_id` of a collection. -/
abbrev Store := Coll → Nat → Option Nat

/-- The first document with an `_id`. -/
def look (l : List Doc) (i : Nat) : Option Nat := (l.find? fun d => d.id == i).map Doc.body

/-- What the clients see of a node. -/
def contents (s : Sys) : Store := fun c i => look (docs s c) i

/-- What an accepted request does to the stored documents. An insert of a stored `_id` does nothing. -/
def Store.after (m : Store) : Plan → Store
  | .createColl c => fun x i => if x = c then none else m x i
  | .dropColl c => fun x i => if x = c then none else m x i
  | .insert c ds => if ds.any (fun d => (m c d.id).isSome) then m else fun x i => if x = c then (look ds i).or (m x i) else m x i
  | .delete c p => fun x i => if x = c then (m x i).filter (fun b => !p ⟨i, b⟩) else m x i
  | .update c g => fun x i => if x = c then (m x i).map (fun b => (g ⟨i, b⟩).getD b) else m x i
  | _ => m

/-- The requests that were answered with success, oldest first. -/
def acknowledged (s : Sys) : List Plan := (s.answers.reverse.filter fun a => a.2.2).map fun a => a.2.1

/-- Something that happens between two requests of clients that wait for each other: a whole request, or the disk agent does a part of its work. -/
inductive Move where
  | ask (k : Nat) (p : Plan)
  | agent

/-- The events of a move. -/
def Move.events : Move → List Event
  | .ask k p => Node.ask k p
  | .agent => [.agent]

/-- The request of a move. -/
def Move.plan? : Move → Option Plan
  | .ask _ p => some p
  | .agent => none

/-- The requests the clean restart is proved for: no dropped databases, no updates, no batch with a repeated `_id`. -/
def Plain : Plan → Prop
  | .dropDb _ => False
  | .update _ _ => False
  | .insert _ ds => (ds.map Doc.id).Nodup
  | _ => True

/-- The requests the crash is proved for: inserts of one document, deletes and finds. -/
def Simple : Plan → Prop
  | .insert _ ds => ∃ d, ds = [d]
  | .delete _ _ => True
  | .find _ => True
  | _ => False

/-- An event before the crash. -/
def Calm : Event → Prop
  | .request _ p => Simple p
  | .crash => False
  | _ => True

/-- An event while the log is replayed: an actor takes its next message. -/
def Inner : Event → Prop
  | .request _ _ => False
  | .crash => False
  | _ => True

end Verif.Node
