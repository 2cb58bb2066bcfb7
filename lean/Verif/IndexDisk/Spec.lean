import Verif.IndexDisk.Model
import Verif.BTree.Spec
/-!
What a user expects of an index: a set of pairs (key, row), and queries by comparison with a key.
-/
namespace Verif.IndexDisk
variable {K Id : Type} [LinearOrder K] [DecidableEq Id]

/-- `a` compared with the probe `k`. -/
def Cmp.holds : Cmp → K → K → Prop
  | .eq, a, k => a = k
  | .ne, a, k => a ≠ k
  | .gt, a, k => k < a
  | .lt, a, k => a < k
  | .gte, a, k => k ≤ a
  | .lte, a, k => a ≤ k
  | .other, _, _ => False

instance (c : Cmp) (a k : K) : Decidable (c.holds a k) := by
  cases c <;> unfold Cmp.holds <;> infer_instance

/-- The rows whose key stands in the relation to `k`. -/
def rows (P : List (K × Id)) (c : Cmp) (k : K) : List Id := (P.filter fun p => decide (c.holds p.1 k)).map Prod.snd

/-- The calls on an index. -/
inductive Op (K Id : Type) where
  | insert (k : K) (d : Id)
  | removeKey (k : K)
  | removePair (k : K) (d : Id)

/-- What they should do to the set of pairs. -/
def want (P : List (K × Id)) : Op K Id → List (K × Id)
  | .insert k d => if (k, d) ∈ P then P else (k, d) :: P
  | .removeKey k => P.filter (·.1 ≠ k)
  | .removePair k d => P.filter (· ≠ (k, d))

def wants (P : List (K × Id)) (ops : List (Op K Id)) : List (K × Id) := ops.foldl want P

variable [BoundedOrder K]

def apply (c : Codec K Id) (mx : Nat) (t : BTree.Tree K) : Op K Id → Res (BTree.Tree K)
  | .insert k d => insert c mx t k d
  | .removeKey k => removeKey mx t k
  | .removePair k d => removePair c mx t k d

def applyAll (c : Codec K Id) (mx : Nat) (t : BTree.Tree K) : List (Op K Id) → Res (BTree.Tree K)
  | [] => .ok t
  | o :: os => (apply c mx t o).bind fun t' => applyAll c mx t' os

/-- The encoding is read back as it was written, and an entry fits into a quarter of a page. -/
structure Codec.Good (c : Codec K Id) : Prop where
  key : ∀ k d, c.keyOf (c.pack k d) = k
  id : ∀ k d, c.idOf (c.pack k d) = d
  size : ∀ k d, 0 < (c.pack k d).length ∧ (c.pack k d).length + 32 ≤ 65536

/-- The full property: after any history of calls every query returns exactly the rows it asks for (in any order, each
once). -/
def C16_claim (c : Codec K Id) (mx : Nat) : Prop :=
  ∀ ops : List (Op K Id), ∃ t, applyAll c mx BTree.empty ops = .ok t ∧
    ∀ k cmp, ∃ l, query c t k cmp = .ok l ∧ l.Perm (rows (wants [] ops) cmp k)

/-- The calls the tree is known to handle with one row per key. -/
def PlainCall (mx : Nat) (P : List (K × Id)) : Op K Id → Prop
  | .insert k d => k ≠ ⊤ ∧ (k ∉ P.map Prod.fst ∨ (k, d) ∈ P)
  | .removeKey k => k ∈ P.map Prod.fst ∨ P.length < 2 * (mx / 4)
  | .removePair k d => (k, d) ∈ P ∨ k ∉ P.map Prod.fst

/-- The calls the tree is known to handle with few keys. -/
def FewKeysCall (mx : Nat) (P : List (K × Id)) : Op K Id → Prop
  | .insert _ _ => (P.map Prod.fst).toFinset.card < mx
  | .removeKey _ => True
  | .removePair k d => P.filter (·.1 = k) = [(k, d)] ∨ k ∉ P.map Prod.fst

/-- Every call of a history satisfies `ok` at its time. -/
def Along (ok : List (K × Id) → Op K Id → Prop) (P : List (K × Id)) : List (Op K Id) → Prop
  | [] => True
  | o :: os => ok P o ∧ Along ok (want P o) os

end Verif.IndexDisk
