import Verif.TextSeg.Model
import Verif.Table.Spec
/-!
What a segment of texts should do, said of the list of the cells it holds.
-/
namespace Verif.TextSeg

open Verif.DocVal

/-- What a cell takes: four bytes, and its text, or eight bytes if the text is too long to be stored in the segment. -/
def cost (lim : Nat) : Option Bytes → Nat
  | none => 4
  | some t => 4 + if t.length < lim then t.length else 8

/-- The cells fit into a segment of `size` bytes. -/
def Fit (size : Nat) (cells : List (Option Bytes)) : Prop := 20 + (cells.map (cost (limit size))).sum ≤ size

/-- Of a batch, `n` cells are to be taken: as many as fit, from the front. -/
def Takes (size : Nat) (held batch : List (Option Bytes)) (n : Nat) : Prop :=
  n ≤ batch.length ∧ Fit size (held ++ batch.take n) ∧ ∀ k, n < k → k ≤ batch.length → ¬ Fit size (held ++ batch.take k)

/-- Batch after batch: how many of each are taken, and what is held at the end. -/
inductive Filled (size : Nat) : List (Option Bytes) → List (List (Option Bytes)) → List Nat → List (Option Bytes) → Prop
  | nil {held} : Filled size held [] [] held
  | cons {held b bs n ns out} : Takes size held b n → Filled size (held ++ b.take n) bs ns out → Filled size held (b :: bs) (n :: ns) out

/-- The last text at or before a row. -/
def latest (cells : List (Option Bytes)) (row : Nat) : Option Bytes := ((cells.take (row + 1)).filterMap id).getLast?

/-- The text of a cell; that of NULL is empty. -/
def text (c : Option Bytes) : Bytes := c.getD []

/-- The segments of tables: longer than the header, and offsets have 31 bits. -/
def Sized (mem : Bytes) : Prop := 20 ≤ mem.length ∧ mem.length < 2 ^ 31

/-- Texts have lengths of 32 bits. -/
def Lengths (cs : List (Option Bytes)) : Prop := ∀ t, some t ∈ cs → t.length + 4 < 2 ^ 32

/-! ### as a column of a table -/

/-- The texts that are stored in the segment. -/
def Short (size : Nat) : Type := { t : Bytes // t.length < limit size }

/-- The cells with these texts. -/
def cells {size : Nat} (ts : List (Short size)) : List (Option Bytes) := ts.map fun t => some t.1

/-- How many elements of a batch fit. -/
def room (size : Nat) : List (Short size) → List (Short size) → Nat
  | _, [] => 0
  | held, b :: bs => if Fit' size (held ++ [b]) then room size (held ++ [b]) bs + 1 else 0
where
  /-- They fit. -/
  Fit' (size : Nat) (ts : List (Short size)) : Bool := decide (20 + ((cells ts).map (cost (limit size))).sum ≤ size)

/-- Text as the type of a column of a table; NULL is stored as the empty text. -/
def textTy (size : Nat) (h : 0 < limit size) : Table.Ty (Short size) := ⟨⟨[], h⟩, room size⟩

end Verif.TextSeg
