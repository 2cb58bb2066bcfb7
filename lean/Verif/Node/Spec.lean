import Verif.Node.Model
/-!
Specification of the node: which requests must be logged, what databases and collections exist after a list of requests, and what
a collection contains.
-/
namespace Verif.Node

/-- The requests that must be in the log when their success is reported. -/
def Durable : Plan → Prop
  | .createDb _ => True
  | .createColl _ => True
  | .dropColl _ => True
  | .insert _ _ => True
  | .delete _ _ => True
  | .update _ _ => True
  | .dropDb _ => False
  | .find _ => False

/-- The log holds the record of request number `n`, which asked for `p`. -/
def InLog (s : Sys) (n : Nat) (p : Plan) : Prop := ∃ id, (⟨id, n, p⟩ : Rec) ∈ s.log

/-- The databases and collections that exist. -/
structure World where
  dbs : Nat → Bool
  colls : Coll → Bool

/-- Nothing exists. -/
def World.empty : World := ⟨fun _ => false, fun _ => false⟩

/-- Whether a request makes sense in a world. -/
def World.ok (w : World) : Plan → Bool
  | .createDb d => !w.dbs d
  | .dropDb d => w.dbs d
  | .createColl c => w.dbs c.db && !w.colls c
  | .dropColl c => w.colls c
  | .insert c _ => w.colls c
  | .delete c _ => w.colls c
  | .update c _ => w.colls c
  | .find c => w.colls c

/-- What an accepted request makes of the world. -/
def World.after (w : World) : Plan → World
  | .createDb d => { w with dbs := fun x => x == d || w.dbs x }
  | .dropDb d => ⟨fun x => x != d && w.dbs x, fun c => c.db != d && w.colls c⟩
  | .createColl c => { w with colls := fun x => x == c || w.colls x }
  | .dropColl c => { w with colls := fun x => x != c && w.colls x }
  | _ => w

/-- One request: the answer and the world afterwards. -/
def World.serve (w : World) (p : Plan) : World × Bool := if w.ok p then (w.after p, true) else (w, false)

/-- The answers to a list of requests. -/
def World.answers (w : World) : List Plan → List Bool
  | [] => []
  | p :: ps => (w.serve p).2 :: World.answers (w.serve p).1 ps

/-- A request to create a collection in a database that does not exist. -/
def World.misplaced (w : World) : Plan → Bool
  | .createColl c => !w.dbs c.db
  | _ => false

/-- The world after a list of requests. -/
def World.afterAll (w : World) : List Plan → World
  | [] => w
  | p :: ps => World.afterAll (w.serve p).1 ps

/-- No request of the list creates a collection in a database that does not exist. -/
def World.placed (w : World) : List Plan → Prop
  | [] => True
  | p :: ps => w.misplaced p = false ∧ World.placed (w.serve p).1 ps

/-- The documents of a collection. -/
def docs (s : Sys) (c : Coll) : List Doc := match s.mem c with
  | some (_, l) => l
  | none => []

/-- No message is under way, except for the disk agent: every request has been answered. -/
def Quiet (s : Sys) : Prop := s.disp = [] ∧ s.exec = [] ∧ s.wal = [] ∧ s.dead = false ∧ s.loading = 0

/-- Client `k` sends one request and waits for the answer, while nobody else asks anything: the actors take turns until the answer is there.
(A request needs at most three messages of the dispatcher, one of the executor and one of the log.) -/
def ask (k : Nat) (p : Plan) : List Event := [.request k p, .disp, .exec, .disp, .wal, .disp]

/-- The requests of some clients, one after the other. -/
def serve (s : Sys) (ps : List (Nat × Plan)) : Sys := run s (ps.flatMap fun x => ask x.1 x.2)

end Verif.Node
