import Verif.VecHash.Model
import Verif.Validity.Spec
/-!
# What C117 says

A cell is null, a value or a list of cells.  Rows with the same cells have the same hash, however their columns are stored and
wherever the rows are.
-/
namespace Verif.VecHash

open Verif Verif.Validity Verif.VecSel

/-- A cell of a chunk; a null of a column of lists is kept apart from other nulls, as their types are different. -/
inductive Cell (T : Type) where
  | null
  | val (x : T)
  | nullList
  | list (cs : List (Cell T))

/-- Two cells are the same: `eq` says which values are. -/
inductive Cell.Same {T : Type} (eq : T → T → Prop) : Cell T → Cell T → Prop
  | null : Same eq .null .null
  | val {x y : T} : eq x y → Same eq (.val x) (.val y)
  | nullList : Same eq .nullList .nullList
  | list {xs ys : List (Cell T)} (hl : xs.length = ys.length) :
      (∀ (i : Nat) (hx : i < xs.length) (hy : i < ys.length), Same eq xs[i] ys[i]) → Same eq (.list xs) (.list ys)

/-- Where row `i` is in the data of a vector: the only row of a constant, the row itself, or the one a dictionary refers to. -/
def Head.place (d : Head) (i : Nat) : Nat :=
  match d.kind with
  | .constant => 0
  | .flat => i
  | .dictionary => d.sel i

/-- The cell of a column in row `i`. -/
def Col.cell {T : Type} : Col T → Nat → Cell T
  | .simple d data, i => if d.mask.valid (d.place i) then .val (data (d.place i)) else .null
  | .list d off len child _, i =>
    if d.mask.valid (d.place i) then
      .list ((List.range (len (d.place i))).map fun j => child.cell (off (d.place i) + j))
    else .nullList
  | .other, _ => .null

/-- The null mask of a vector covers its first `count` rows. -/
def Head.Fit (d : Head) (count : Nat) : Prop :=
  d.mask.WF ∧ (d.kind = .constant → 0 < d.mask.count) ∧ ∀ i, i < count → d.place i / 64 < d.mask.count

/-- A column with at least `count` rows: its null masks cover them and its lists are within their elements. -/
def Col.Fit {T : Type} : Col T → Nat → Prop
  | .simple d _, count => d.Fit count
  | .list d off len child size, count =>
    d.Fit count ∧ (∀ i, i < count → d.mask.valid (d.place i) → off (d.place i) + len (d.place i) ≤ size) ∧ child.Fit size
  | .other, _ => True

/-- All types in the column have a hash. -/
def Col.Known {T : Type} : Col T → Prop
  | .simple _ _ => True
  | .list _ _ _ child size => 0 < size → child.Known
  | .other => False

/-- A cell of a simple type. -/
def Cell.simple {T : Type} : Option T → Cell T
  | none => .null
  | some x => .val x

/-- **C117**, in full: the rows of chunks have hashes, the same ones for rows with the same cells. -/
def C117_hash_claim : Prop :=
  ∀ (T : Type) (eq : T → T → Prop) (h : T → Word), (∀ x y, eq x y → h x = h y) →
    ∀ (a b : List (Col T)) (n m : Nat) (s t : Hashes), a ≠ [] → a.length = b.length →
    (∀ c ∈ a, c.Fit n) → (∀ c ∈ b, c.Fit m) →
    ∃ u v, hashChunk h a s n = .ok u ∧ hashChunk h b t m = .ok v ∧
      ∀ i j, i < n → j < m → (∀ (k : Nat) (ha : k < a.length) (hb : k < b.length), Cell.Same eq (a[k].cell i) (b[k].cell j)) →
        u.row i = v.row j

end Verif.VecHash
