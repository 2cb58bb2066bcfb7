import Verif.BTree.Model
/-!
What a user expects of the on-disk B+ tree: a set of entries (key, item).  Nothing here refers to leaves or nodes.
-/
namespace Verif.BTree
variable {K : Type} [LinearOrder K]

/-- The modifying calls. -/
inductive Op (K : Type) where
  | append (k : K) (x : Bytes)
  | remove (k : K) (x : Bytes)
  | removeIndex (k : K)

/-- What a call should do to the set and what it should answer. -/
def want (S : List (K × Bytes)) : Op K → List (K × Bytes) × Bool
  | .append k x => if (k, x) ∈ S then (S, false) else ((k, x) :: S, true)
  | .remove k x => (S.filter (· ≠ (k, x)), decide ((k, x) ∈ S))
  | .removeIndex k => (S.filter (·.1 ≠ k), decide (k ∈ S.map Prod.fst))

/-- A history of calls: the resulting set and the answers. -/
def wants (S : List (K × Bytes)) : List (Op K) → List (K × Bytes) × List Bool
  | [] => (S, [])
  | o :: os => ((wants (want S o).1 os).1, (want S o).2 :: (wants (want S o).1 os).2)

variable [BoundedOrder K]

/-- One call on the model of the tree. -/
def apply (mx : Nat) (t : Tree K) : Op K → Res (Tree K × Bool)
  | .append k x => append mx t k x
  | .remove k x => remove mx t k x
  | .removeIndex k => removeIndex mx t k

/-- A history of calls on the model of the tree. -/
def applyAll (mx : Nat) (t : Tree K) : List (Op K) → Res (Tree K × List Bool)
  | [] => .ok (t, [])
  | o :: os => (apply mx t o).bind fun r => (applyAll mx r.1 os).bind fun q => .ok (q.1, r.2 :: q.2)

/-- All questions about the tree are answered from the set `S`: membership, the items of a key, the full scan in key
order, the bounded scans in both directions, the size. -/
structure Answers (t : Tree K) (S : List (K × Bytes)) : Prop where
  contains : ∀ k x, contains t k x = .ok (decide ((k, x) ∈ S))
  containsIndex : ∀ k, containsIndex t k = .ok (decide (k ∈ S.map Prod.fst))
  itemCount : ∀ k, itemCount t k = .ok (S.filter (·.1 = k)).length
  getItems : ∀ k, ∃ l : List Bytes, getItems t k = .ok l ∧ l.Perm ((S.filter (·.1 = k)).map Prod.snd)
  getItem : ∀ k, ∃ l : List Bytes, (∀ i < (S.filter (·.1 = k)).length, ∃ x, getItem t k i = .ok (some x) ∧ l[i]? = some x) ∧
    l.Perm ((S.filter (·.1 = k)).map Prod.snd)
  scans : ∃ L : List (K × Bytes), L.Perm S ∧ (L.map Prod.fst).Pairwise (· ≤ ·) ∧ ∀ p : K × Bytes → Bool,
    fullScan t p = .ok (L.filter p) ∧ ∀ (lo hi : K) (n : Nat),
      scanAscending t lo hi n p = .ok ((L.filter fun e => decide (lo ≤ e.1) && decide (e.1 ≤ hi) && p e).take n) ∧
      scanDecending t lo hi n p = .ok ((L.reverse.filter fun e => decide (lo ≤ e.1) && decide (e.1 ≤ hi) && p e).take n)
  size : size t = S.length

/-- The full property. -/
def C12_claim (K : Type) [LinearOrder K] [BoundedOrder K] (mx : Nat) : Prop :=
  ∀ ops : List (Op K), (∀ k x, Op.append k x ∈ ops → 0 < x.length ∧ x.length + 32 ≤ 65536 ∧ k ≠ ⊤) →
    ∃ t, applyAll mx empty ops = .ok (t, (wants [] ops).2) ∧ Answers t (wants [] ops).1 ∧
      ∃ d, flush t none = .ok d ∧ Answers (load mx empty d) (wants [] ops).1

/-- What the code is known to handle when a key has at most one item: the call adds a key that is not there or an
entry that is there, removes an entry or a key that is there.  (The exceptions: with exactly `mx` entries only new keys
are added; with fewer than half of `mx / 2` entries a missing key may be removed.) -/
def PlainCall (mx : Nat) (S : List (K × Bytes)) : Op K → Prop
  | .append k x => 0 < x.length ∧ x.length + 32 ≤ 65536 ∧ k ≠ ⊤ ∧ (k ∉ S.map Prod.fst ∨ ((k, x) ∈ S ∧ S.length ≠ mx))
  | .remove k x => (k, x) ∈ S
  | .removeIndex k => k ∈ S.map Prod.fst ∨ S.length < 2 * (mx / 4)

/-- What the code is known to handle when the tree has few distinct keys: anything may be added while there are fewer
than `mx` distinct keys, any key may be removed, and an entry that is there may be removed if it is the only one of
its key. -/
def FewKeysCall (mx : Nat) (S : List (K × Bytes)) : Op K → Prop
  | .append _ x => 0 < x.length ∧ x.length + 32 ≤ 65536 ∧ (S.map Prod.fst).toFinset.card < mx
  | .remove k x => S.filter (·.1 = k) = [(k, x)]
  | .removeIndex _ => True

/-- Every call of a history satisfies `ok` at its time. -/
def Along (ok : List (K × Bytes) → Op K → Prop) (S : List (K × Bytes)) : List (Op K) → Prop
  | [] => True
  | o :: os => ok S o ∧ Along ok (want S o).1 os

end Verif.BTree
