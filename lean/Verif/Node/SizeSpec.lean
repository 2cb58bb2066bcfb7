import Verif.Node.SizeModel
import Verif.Node.AnswerSpec
/-! What one expects of the size of a collection. -/
namespace Verif.Node

/-- The number of documents a collection has in memory. -/
def Sz.docs (s : Sz) (c : Coll) : Option Nat := (s.node.mem c).map fun m => m.2.length

/-- Request number `n` has been sent, is about `c`, and is not answered. -/
def Sz.waits (s : Sz) (n : Nat) (c : Coll) : Prop := s.asked[n]? = some c ∧ ∀ a, (n, a) ∉ s.got

/-- The requests of a schedule that are not about sizes. -/
def nodeEvents : List SzEvent → List Event
  | [] => []
  | .node e :: es => e :: nodeEvents es
  | _ :: es => nodeEvents es

/-- Nothing is dropped, and the process does not crash. -/
def NoDrops (es : List SzEvent) : Prop :=
  (∀ k p, SzEvent.node (.request k p) ∈ es → p.drops = false) ∧ SzEvent.node .crash ∉ es

/-- Sizes are asked of collections there are: those the catalog has at that time. -/
def AsksKnown (es : List SzEvent) : Prop :=
  ∀ es₁ c es₂, es = es₁ ++ .ask c :: es₂ → (Sz.init.run es₁).node.cat.computes c = true

/-- No request about a size is handled while the executor writes to that collection. -/
def Apart (es : List SzEvent) : Prop :=
  ∀ es₁ es₂, es = es₁ ++ .take :: es₂ → ∀ n c rs, (Sz.init.run es₁).reqs = (n, c) :: rs → (Sz.init.run es₁).writing c = false

end Verif.Node
