import Verif.IdxReg.FileModel
/-!
# What C115 says

The file stands for a list of indexes.
-/
namespace Verif.IdxFile

open Verif

/-- An index is read as it was written, and its text can be held in a string. -/
def Codec.Good {α : Type} (c : Codec α) (i : α) : Prop := c.dec (c.enc i) = .ok i ∧ (c.enc i).length < 2 ^ 63 - 1

/-- So it is with all indexes that are made. -/
def Codec.GoodAll {α : Type} (c : Codec α) (ops : List (Op α)) : Prop := ∀ i, Op.create i ∈ ops → c.Good i

/-- The indexes there are after `ops`, if there were `is`, in the order they were made. -/
def there {α : Type} (c : Codec α) (is : List α) : List (Op α) → List α
  | [] => is
  | .create i :: ops => there c (is ++ [i]) ops
  | .drop n :: ops => there c (is.filter fun i => !(c.name i == n)) ops
  | .dropColl n :: ops => there c (is.filter fun i => !(c.coll i == n)) ops

/-- **C115**, in full: after any operations the file is read as the indexes there are; if the program stops while an index is
made, that one is there or not and all others are, and those made later are there too. -/
def C115_file_claim : Prop :=
  ∀ (α : Type) (c : Codec α) (ops : List (Op α)), c.GoodAll ops →
    (∃ b, run c [] ops = .ok b ∧ read c b = .ok (there c [] ops)) ∧
    ∀ (b : Bytes) (i : α) (k : Nat) (js : List α), c.Good i → (∀ j ∈ js, c.Good j) → run c [] ops = .ok b →
      read c (writeAll c (stopped c b i k) js) = .ok (there c [] ops ++ js) ∨
      read c (writeAll c (stopped c b i k) js) = .ok (there c [] ops ++ i :: js)

end Verif.IdxFile
