import Verif.Node.Spec
/-!
Specification for C103: which requests were sent, when nothing is under way, and what it is to let every actor have its turn.
-/
namespace Verif.Node

/-- A client can send a request now: the process runs, has been loaded, and the client does not wait for an answer. -/
def CanSend (s : Sys) (k : Nat) : Prop := s.dead = false ∧ s.loading = 0 ∧ s.open' (.client k) = none

open Classical in
/-- The plans of the requests sent from a state on, in order. -/
noncomputable def sentFrom (s : Sys) : List Event → List Plan
  | [] => []
  | .request k p :: es => (if CanSend s k then [p] else []) ++ sentFrom (step s (.request k p)) es
  | e :: es => sentFrom (step s e) es

/-- The plans of the requests sent to a new node: request number `n` is the `n`-th of them. -/
noncomputable def sent (es : List Event) : List Plan := sentFrom init es

/-- No message is under way to the dispatcher, the executor or the log. -/
def Idle (s : Sys) : Prop := s.disp = [] ∧ s.exec = [] ∧ s.wal = []

/-- The number of messages under way. -/
def underWay (s : Sys) : Nat := s.disp.length + s.exec.length + s.wal.length

/-- A part of a schedule in which no request is sent, the process does not end, and the dispatcher, the executor and the log each have a
turn at least, in any order. -/
def Round (r : List Event) : Prop :=
  (∀ e ∈ r, e = .disp ∨ e = .exec ∨ e = .wal ∨ e = .agent) ∧ Event.disp ∈ r ∧ Event.exec ∈ r ∧ Event.wal ∈ r

/-- A request that takes something away from other requests. -/
def Plan.drops : Plan → Bool
  | .dropDb _ => true
  | .dropColl _ => true
  | _ => false

/-- Databases and collections are dropped by clients that are alone: nobody else waits for an answer when a drop is sent, and nothing is sent
before it is answered. -/
def DropsAlone (es : List Event) : Prop :=
  ∀ es₁ k p es₂, es = es₁ ++ .request k p :: es₂ →
    (p.drops = true → ∀ x, (run init es₁).open' x = none) ∧
    (∀ x n q, (run init es₁).open' x = some (n, q) → q.drops = false)

end Verif.Node
