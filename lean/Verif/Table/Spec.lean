import Verif.Table.Model
/-!
What a user of a table expects, without segments, row groups, masks and stamps: columns of cells
that only grow, and the set of rows that were deleted.
-/
namespace Verif.Table
variable {α : Type}

/-- A table as its user thinks of it: row `i` has the cell `cols[j][i]` in column `j`; `rows` rows
were appended so far; a deleted row keeps its id. -/
structure Ideal (α : Type) where
  rows : Nat
  cols : List (List (Cell α))
  dead : Nat → Bool

/-- The ids of the rows that are left, in the order they were appended. -/
def Ideal.live (s : Ideal α) : List Nat := (List.range s.rows).filter fun i => !s.dead i

/-- A table without rows, `w` columns. -/
def Ideal.empty (w : Nat) : Ideal α := ⟨0, List.replicate w [], fun _ => false⟩

/-- A chunk of `size` rows for a table with `w` columns. -/
structure Chunk.For (ch : Chunk α) (w : Nat) : Prop where
  width : ch.cols.length = w
  height : ∀ c ∈ ch.cols, c.length = ch.size

/-- Appended rows go behind the rows that are there. -/
def Ideal.append (s : Ideal α) (ch : Chunk α) : Ideal α :=
  { s with rows := s.rows + ch.size, cols := List.zipWith (· ++ ·) s.cols ch.cols }

/-- Deleted rows are no longer there, all others are. -/
def Ideal.delete (s : Ideal α) (ids : List Nat) : Ideal α := { s with dead := fun i => s.dead i || decide (i ∈ ids) }

/-- A column after the rows `ids` got the cells `new`. -/
def assign (l : List (Cell α)) : List Nat → List (Cell α) → List (Cell α)
  | i :: is, x :: xs => assign (l.set i x) is xs
  | _, _ => l

/-- Updated rows have the new cells, all others keep theirs. -/
def Ideal.update (s : Ideal α) (ids : List Nat) (ch : Chunk α) : Ideal α :=
  { s with cols := List.zipWith (fun l new => assign l ids new) s.cols ch.cols }

/-- A call that changes a table. -/
inductive Call (α : Type) where
  /-- `append_lock`, `initialize_append`, `append` for every chunk, `finalize_append` -/
  | append (chs : List (Chunk α))
  /-- `delete_rows` -/
  | delete (ids : List Nat)
  /-- `update` of all columns -/
  | update (ids : List Nat) (ch : Chunk α)

/-- Calls with chunks that fit the table and, for an update, different rows. -/
def Call.Fits (w : Nat) : Call α → Prop
  | .append chs => ∀ ch ∈ chs, ch.For w
  | .delete _ => True
  | .update ids ch => ch.For w ∧ ids.Nodup ∧ ids.length = ch.size

/-- What a call should do. -/
def Ideal.step (s : Ideal α) : Call α → Ideal α
  | .append chs => chs.foldl Ideal.append s
  | .delete ids => s.delete ids
  | .update ids ch => s.update ids ch

/-- What a call does. -/
def Table.step (t : Table α) : Call α → Res (Table α)
  | .append chs => t.append chs
  | .delete ids => (t.delete ids).map' Prod.fst
  | .update ids ch => t.update ids ch

/-- `After h t s`: the calls `h`, made on a new table with columns of the types `tys`, all returned and
left the table `t`; `s` is what they should have left. -/
inductive After (tys : List (ColTy α)) : List (Call α) → Table α → Ideal α → Prop
  | new : After tys [] (Table.create tys) (Ideal.empty tys.length)
  | call {h t s c t'} : After tys h t s → c.Fits tys.length → t.step c = .ok t' → After tys (h ++ [c]) t' (s.step c)

/-- A type whose segments take at least one element when they are empty. -/
structure Ty.Ok (ty : Ty α) : Prop where
  le : ∀ stored batch, ty.room stored batch ≤ batch.length
  pos : ∀ batch, batch ≠ [] → 0 < ty.room [] batch

/-- The same for the values and the null flags. -/
def ColTy.Ok (ty : ColTy α) : Prop := ty.ty.Ok ∧ 0 < ty.capV

/-- What a reader of the columns `refs` of the whole table must get: each row that is left once, in
order, and in every chunk the cells of these rows. -/
structure Reads (s : Ideal α) (rows : List Nat) (refs : List Nat) (outs : List (Out α)) : Prop where
  ids : outs.flatMap Out.ids = rows
  size : ∀ o ∈ outs, o.ids ≠ [] ∧ o.ids.length ≤ 1024
  width : ∀ o ∈ outs, o.cols.length = refs.length
  cells : ∀ o ∈ outs, ∀ (k j : Nat) (col l : List (Cell α)), refs[k]? = some j → o.cols[k]? = some col → s.cols[j]? = some l →
    col.map some = o.ids.map fun i => l[i]?

/-! ### Filters -/

/-- What the comparison of a value with the constant must be. -/
def FOp.sat : FOp → Ordering → Bool
  | .eq, o => o == .eq
  | .ne, o => o != .eq
  | .lt, o => o == .lt
  | .lte, o => o != .gt
  | .gt, o => o == .gt
  | .gte, o => o != .lt
  | .allTrue, _ => true
  | .other, _ => false

mutual
/-- A row satisfies a filter; a comparison with NULL does not hold. -/
def Flt.holds (cmp : α → α → Ordering) (row : List (Cell α)) : Flt α → Bool
  | .const col op c =>
    match row[col]? with
    | some (some x) => op.sat (cmp x c)
    | _ => false
  | .and l => Flt.all cmp row l
  | .or l => Flt.any cmp row l
  | .invalid => false
  | .null => false
/-- All filters of a list hold. -/
def Flt.all (cmp : α → α → Ordering) (row : List (Cell α)) : List (Flt α) → Bool
  | [] => true
  | f :: fs => Flt.holds cmp row f && Flt.all cmp row fs
/-- One filter of a list holds. -/
def Flt.any (cmp : α → α → Ordering) (row : List (Cell α)) : List (Flt α) → Bool
  | [] => false
  | f :: fs => Flt.holds cmp row f || Flt.any cmp row fs
end

mutual
/-- A filter made of comparisons whose columns satisfy `p`. -/
def Flt.On (p : Nat → Prop) : Flt α → Prop
  | .const col _ _ => p col
  | .and l => Flt.AllOn p l
  | .or l => Flt.AllOn p l
  | .invalid => False
  | .null => False
/-- The same for the filters of a list. -/
def Flt.AllOn (p : Nat → Prop) : List (Flt α) → Prop
  | [] => True
  | f :: fs => Flt.On p f ∧ Flt.AllOn p fs
end

/-- The cells of row `i`. -/
def Ideal.row (s : Ideal α) (i : Nat) : List (Cell α) := s.cols.map fun l => (l[i]?).join

/-- The rows some update changed. -/
def touched : List (Call α) → Nat → Bool
  | [], _ => false
  | .update ids _ :: h, i => decide (i ∈ ids) || touched h i
  | _ :: h, i => touched h i

end Verif.Table
