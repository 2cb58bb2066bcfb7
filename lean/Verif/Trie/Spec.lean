import Verif.Trie.Model
import Mathlib.Data.Set.Basic
/-!
What the catalog trie and the set of namespaces are meant to be.
-/
namespace Verif.Trie
variable {E V : Type} [LinearOrder E]

/-- The calls of a trie.  `touch` is any change made through a reference to the versions of one path, in particular of
their reference counts. -/
inductive Op (E V : Type) where
  | insert (p : List E) (v : V)
  | erase (p : List E)
  | touch (p : List E) (f : Ver V → Ver V)

def step (t : Trie E V) : Op E V → Trie E V
  | .insert p v => t.insert p v
  | .erase p => (t.erase p).1
  | .touch p f => t.touch p f

/-- The trie after a history of calls. -/
def after (ops : List (Op E V)) : Trie E V := ops.foldl step Trie.empty

/-- A map with history: the stack of values of every path. -/
def stackStep (m : List E → List V) : Op E V → List E → List V
  | .insert p v => fun q => if q = p then m q ++ [v] else m q
  | .erase p => fun q => if q = p then (m q).dropLast else m q
  | .touch _ _ => m

def stackAfter (ops : List (Op E V)) : List E → List V := ops.foldl stackStep fun _ => []

/-- The changes in place leave the values. -/
def Op.keepsValues : Op E V → Prop
  | .touch _ f => ∀ v, (f v).val = v.val
  | _ => True

/-- No insertion at a path that holds a value already. -/
def FreshInserts (ops : List (Op E V)) : Prop :=
  ∀ pre post p v, ops = pre ++ Op.insert p v :: post → stackAfter pre p = []

/-! ### namespaces -/

/-- The calls of the namespace storage; names are never empty.  `touch`: tables come and go inside a namespace. -/
inductive NsOp (E V : Type) where
  | create (p : List E) (hp : p ≠ [])
  | drop (p : List E)
  | touch (p : List E) (f : Ver V → Ver V)

def nsStep (info : V) (t : Trie E V) : NsOp E V → Trie E V
  | .create p _ => (create info t p).1
  | .drop p => drop t p
  | .touch p f => t.touch p f

def nsAfter (info : V) (ops : List (NsOp E V)) : Trie E V := ops.foldl (nsStep info) Trie.empty

/-- No creation of the history ended with an exception. -/
def NoThrow (info : V) (ops : List (NsOp E V)) : Prop :=
  ∀ pre post p hp, ops = pre ++ NsOp.create p hp :: post → (create info (nsAfter info pre) p).2 = false

/-- The set of the namespaces that exist.  Creating one adds it and those of its ancestors that are nearer than its
nearest existing ancestor; if it exists already, nothing.  Dropping one removes exactly that one. -/
def nsSpecStep (S : Set (List E)) : NsOp E V → Set (List E)
  | .create p _ => {q | q ∈ S ∨ (q ≠ [] ∧ q <+: p ∧ ∀ r ∈ S, r <+: p → r.length < q.length)}
  | .drop p => {q | q ∈ S ∧ q ≠ p}
  | .touch _ _ => S

def nsSpec (ops : List (NsOp E V)) : Set (List E) := ops.foldl nsSpecStep ∅

/-- A namespace is dropped only when no other exists below it. -/
def DropsLeaves (ops : List (NsOp E V)) : Prop :=
  ∀ pre post p, ops = pre ++ NsOp.drop p :: post → ∀ q ∈ nsSpec pre, p <+: q → q = p

end Verif.Trie
