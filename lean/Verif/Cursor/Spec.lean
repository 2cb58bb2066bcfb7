import Verif.Cursor.Model
/-!
Walking through a list of documents.
-/
namespace Verif.Cursor

/-- The documents in their order, and how many were asked for one after the other. -/
structure Walk (α : Type) where
  docs : List α
  asked : Nat

/-- `next` gives one document after the other, then nothing; `hasNext` whether there is another one; `get` the one given
last, at first the first one; `sort` begins again. -/
def Walk.out {α : Type} (w : Walk α) : Call α → Out α
  | .hasNext => .bool (decide (w.asked < w.docs.length))
  | .next => .doc w.docs[w.asked]?
  | .get => .doc w.docs[w.asked - 1]?
  | .getAt i => .doc w.docs[i]?
  | .sort _ => .nothing

def Walk.after {α : Type} (w : Walk α) : Call α → Walk α
  | .next => ⟨w.docs, w.asked + 1⟩
  | .sort f => ⟨f w.docs, 0⟩
  | _ => w

def Walk.outs {α : Type} (w : Walk α) : List (Call α) → List (Out α)
  | [] => []
  | x :: xs => w.out x :: (w.after x).outs xs

/-- The sorting functions only reorder. -/
def Call.fine {α : Type} : Call α → Prop
  | .sort f => ∀ l, (f l).Perm l
  | _ => True

/-- The number of documents asked for. -/
def nexts {α : Type} : List (Call α) → Nat
  | [] => 0
  | .next :: xs => nexts xs + 1
  | _ :: xs => nexts xs

end Verif.Cursor
