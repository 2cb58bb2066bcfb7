import Verif.VecVal.SliceModel
import Verif.VecVal.Spec
/-!
What C81 and C82 say: chunks built up from rows, other chunks and slices, and the rows they have to have.
-/
namespace Verif.VecVal

mutual
/-- How a chunk comes to be: new, a row added, rows of a slice appended, or the rows of a slice copied into a new one. -/
inductive Build (ts : List Ty) where
  | new (cap : Nat)
  | add (b : Build ts) (row : Vals ts)
  | append (b : Build ts) (c : Cut ts) (mayGrow : Bool) (sel : Option (List Nat))
  | copy (cap : Nat) (c : Cut ts) (sel : Option (List Nat)) (off : Nat)
/-- What rows are taken from: a chunk, or rows picked by their numbers, or a part of the rows. -/
inductive Cut (ts : List Ty) where
  | all (b : Build ts)
  | slice (c : Cut ts) (sel : List Nat)
  | part (c : Cut ts) (off n : Nat)
end

/-- The rows with the numbers `sel`; all of them if there is no `sel`. -/
def chosen {α : Type} (rows : List α) : Option (List Nat) → List α
  | none => rows
  | some sel => sel.filterMap (rows[·]?)

mutual
/-- The rows there have to be. -/
def Build.rows {ts : List Ty} : Build ts → List (Vals ts)
  | .new _ => []
  | .add b x => b.rows ++ [x]
  | .append b c _ sel => b.rows ++ chosen c.rows sel
  | .copy _ c sel off => (chosen c.rows sel).drop off
def Cut.rows {ts : List Ty} : Cut ts → List (Vals ts)
  | .all b => b.rows
  | .slice c sel => chosen c.rows (some sel)
  | .part c off n => (c.rows.drop off).take n
end

mutual
/-- What the code makes of it. -/
def Build.eval {ts : List Ty} : Build ts → Res (Chunk ts)
  | .new cap => if sizeds ts then .ok (Chunk.new ts cap) else .ub
  | .add b x => b.eval.bind fun c => c.addRow x
  | .append b c g sel => b.eval.bind fun x => c.eval.bind fun y => x.append y g sel ((sel.map List.length).getD 0)
  | .copy cap c sel off => if sizeds ts then c.eval.bind fun y => y.copyTo (Chunk.new ts cap) sel ((sel.map List.length).getD 0) off else .ub
def Cut.eval {ts : List Ty} : Cut ts → Res (Sliced ts)
  | .all b => b.eval.bind fun c => .ok c.all
  | .slice c sel => c.eval.bind fun y => y.slice sel sel.length
  | .part c off n => c.eval.bind fun y => y.part off n
end

mutual
/-- What a caller has to keep to: a chunk has room for a row at least; there is room for what is added, as the chunk says, unless it may
grow; arrays have as many elements as their type says; only rows that are there are picked. -/
def Build.Legal {ts : List Ty} : Build ts → Prop
  | .new cap => 0 < cap
  | .add b x => b.Legal ∧ Sizeds ts x ∧ ∀ c, b.eval = .ok c → c.count < c.cap
  | .append b c g sel => b.Legal ∧ c.Legal ∧ (∀ s, sel = some s → ∀ r ∈ s, r < c.rows.length) ∧
      (g = false → ∀ x, b.eval = .ok x → x.count + (chosen c.rows sel).length ≤ x.cap)
  | .copy cap c sel off => 0 < cap ∧ c.Legal ∧ (∀ s, sel = some s → ∀ r ∈ s, r < c.rows.length) ∧ off ≤ (chosen c.rows sel).length ∧
      (chosen c.rows sel).length - off ≤ cap
def Cut.Legal {ts : List Ty} : Cut ts → Prop
  | .all b => b.Legal
  | .slice c sel => c.Legal ∧ ∀ r ∈ sel, r < c.rows.length
  | .part c off n => c.Legal ∧ off + n ≤ c.rows.length
end

/-- A chunk has these rows. -/
def Chunk.Holds {ts : List Ty} (c : Chunk ts) (rows : List (Vals ts)) : Prop :=
  c.count = rows.length ∧ ∀ i x, rows[i]? = some x → c.row i = .ok x

/-- So has a slice. -/
def Sliced.Holds {ts : List Ty} (c : Sliced ts) (rows : List (Vals ts)) : Prop :=
  c.count = rows.length ∧ ∀ i x, rows[i]? = some x → c.row i = .ok x

/-- C80, in full: whatever the type, what is read from a row is what was last written to it. -/
def C80_claim : Prop := ∀ (t : Ty) (cap : Nat) (ws : List (Nat × Val t)), 0 < cap → (∀ w ∈ ws, w.1 < cap ∧ Sized t w.2) →
  ∃ v, sized t = true ∧ writes t (make t cap) ws = .ok v ∧ ∀ r, r < cap → get t v r = .ok (last (zero t) ws r)

/-- A chunk sliced again and again. -/
def Sliced.sliceAll {ts : List Ty} (c : Sliced ts) : List (List Nat) → Res (Sliced ts)
  | [] => .ok c
  | sel :: sels => (c.slice sel sel.length).bind fun w => w.sliceAll sels

/-- Every slice picks rows that are there, the first of `n` rows. -/
def InRange (n : Nat) : List (List Nat) → Prop
  | [] => True
  | sel :: sels => (∀ r ∈ sel, r < n) ∧ InRange sel.length sels

/-- The rows of the last slice, as numbers of the rows of the chunk; the rows of a chunk are numbered from 0. -/
def through (rows : List Nat) : List (List Nat) → List Nat
  | [] => rows
  | sel :: sels => through (chosen rows (some sel)) sels

/-- C83, in full: what is written to a row of a slice is read from it, and the rows of the slice that are other rows of the chunk stay
as they were. -/
def C83_claim : Prop := ∀ (t : Ty) (v : Vec t) (cap : Nat) (ws : List (Nat × Val t)) (sel : List Nat) (w : View t) (i : Nat) (x : Val t),
  plain t = true → (∀ u ∈ ws, u.1 < cap ∧ Sized t u.2) → writes t (make t cap) ws = .ok v → (∀ r ∈ sel, r < cap) →
  slice t (flat t v) sel sel.length = .ok w → i < sel.length → Sized t x →
  ∃ w', put t w i x = .ok w' ∧ view t w' i = .ok x ∧ ∀ j, j < sel.length → sel[j]? ≠ sel[i]? → view t w' j = view t w j

/-- C82, in full: a chunk with columns of any type has the rows it was built from. -/
def C82_claim : Prop := ∀ (ts : List Ty) (b : Build ts), b.Legal → ∃ c, b.eval = .ok c ∧ c.Holds b.rows

end Verif.VecVal
