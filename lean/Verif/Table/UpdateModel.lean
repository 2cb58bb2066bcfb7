import Verif.Table.OpsModel
/-!
Model of UPDATE on columnar tables: the expressions of components/expressions/update_expression.cpp
on chunks and `operator_update` of components/physical_plan/table/operators with one child, over
`Verif.Table.OpsModel`.

A scan of a whole vector of a column of fixed size does not copy: the vector of the chunk points into
the segment (column_segment.cpp:462-472), also behind a dictionary (column_data.cpp:145-152). So SET
writes into the table before `data_table_t::update` is called.

Simplifications: names of columns are resolved to their numbers; the value of an expression has the
type of its column (`set_value` converts it, vector.cpp:424-427, see `Verif.VecVal`); calculations do
not throw; values are compared by `=`; there are no indexes and no upsert.
-/
namespace Verif.Table
open Verif
open Verif.Mvcc (CAP)

variable {α : Type}

/-- The right side of a SET: `update_expr_get_value_t`, `update_expr_get_const_value_t` and
`update_expr_calculate_t` (update_expression.hpp), the latter with the function it applies. -/
inductive UEx (α : Type) where
  | get (col : Nat)
  | val (c : Cell α)
  | calc (f : Cell α → Cell α → Cell α) (l r : UEx α)

/-- `update_expr_set_t`: a column and its new value. -/
structure SetEx (α : Type) where
  col : Nat
  rhs : UEx α

/-- `execute` of a right side on a row of the chunk, update_expression.cpp:43-56 with 253-296, 327-335
and 430-507. -/
def UEx.eval (row : List (Cell α)) : UEx α → Res (Cell α)
  | .get j =>
    match row[j]? with
    | some c => .ok c
    | none => .ub
  | .val c => .ok c
  | .calc f l r => (l.eval row).bind fun a => (r.eval row).map' fun b => f a b

/-- A row after the expressions: its cells, the values written to its columns, one after the other,
and whether an expression reported a change. -/
structure RowUpd (α : Type) where
  row : List (Cell α)
  writes : List (Nat × α)
  modified : Bool

/-- The loop over the expressions, operator_update.cpp:120-123, each an `update_expr_set_t`
(update_expression.cpp:190-217): it reads the row as the expressions before it left it. NULL only
clears a flag of the chunk (vector.cpp:430-433). -/
def runSets [DecidableEq α] : List (SetEx α) → List (Cell α) → Res (RowUpd α)
  | [], row => .ok ⟨row, [], false⟩
  | x :: xs, row =>
    (x.rhs.eval row).bind fun v =>
      match row[x.col]? with
      | none => .ub
      | some old => (runSets xs (row.set x.col v)).map' fun r =>
          ⟨r.row, v.toList.map (fun a => (x.col, a)) ++ r.writes, decide (old ≠ v) || r.modified⟩

/-- Row `i` of a chunk. -/
def rowAt (i : Nat) : List (List (Cell α)) → Res (List (Cell α))
  | [] => .ok []
  | l :: ls =>
    match l[i]? with
    | none => .ub
    | some x => (rowAt i ls).map' fun r => x :: r

/-- The loop over the rows, operator_update.cpp:109-135. A row is not changed by the expressions for
another one. -/
def runRows [DecidableEq α] (sets : List (SetEx α)) (cols : List (List (Cell α))) : List Nat → Res (List (RowUpd α))
  | [] => .ok []
  | i :: is => (rowAt i cols).bind fun row => (runSets sets row).bind fun r =>
      (runRows sets cols is).map' fun rs => r :: rs

/-- The vector of the scanned column points into its first segment: neither the values nor the flags
were updated and one segment has the whole vector (column_data.cpp:58-71, standard_column_data.cpp:19-30).
A row group has one vector. -/
def Std.aliased (s : Std α) : Bool :=
  match s.data.flat s.data.initScan (s.data.vectorCount 0), s.valid.flat s.valid.initScan (s.data.vectorCount 0) with
  | .ok false, .ok false => true
  | _, _ => false

/-- A value written through such a vector, vector.cpp:435-474, at position `i`; the flags of a chunk are
its own (column_segment.cpp:544-573). -/
def Std.poke (s : Std α) (i : Nat) (a : α) : Std α :=
  match s.data.segs with
  | [] => s
  | seg :: rest => { s with data := { s.data with segs := { seg with cells := seg.cells.set i a } :: rest } }

/-- `set_value` for row `r`, as far as the table changes. `fixed j` says that column `j` is of a type of
fixed size; the views of texts belong to the chunk (column_segment.cpp:575-595). Whether a column is
`aliased` was decided by the scan; writing does not change it. -/
def Table.poke (fixed : Nat → Bool) (t : Table α) (r j : Nat) (a : α) : Res (Table α) :=
  (t.groupOf r).bind fun gi =>
    match t.groups[gi]? with
    | none => .ub
    | some g =>
      match g.cols[j]? with
      | none => .ub
      | some s =>
        if fixed j && s.aliased then
          .ok { t with groups := t.groups.set gi { g with cols := g.cols.set j (s.poke (r - g.start) a) } }
        else .ok t

/-- The values written for one row. -/
def pokeRow (fixed : Nat → Bool) (r : Nat) : Table α → List (Nat × α) → Res (Table α)
  | t, [] => .ok t
  | t, p :: ps => (t.poke fixed r p.1 p.2).bind fun t' => pokeRow fixed r t' ps

/-- The values written for all rows. -/
def pokeRows (fixed : Nat → Bool) : Table α → List (Nat × RowUpd α) → Res (Table α)
  | t, [] => .ok t
  | t, p :: ps => (pokeRow fixed p.1 t p.2.writes).bind fun t' => pokeRows fixed t' ps

/-- The columns of rows of width `w`. -/
def colsOf (w : Nat) (rows : List (List (Cell α))) : List (List (Cell α)) :=
  (List.range w).map fun j => rows.map fun r => (r[j]?).join

/-- UPDATE without FROM: `operator_update` with one child (operator_update.cpp:90-141) over the scan
operator, as create_plan_update.cpp:92-101 puts them together. The table after it, the rows it returns
and the positions (in the chunk) it reports as modified. The ids of the rows are collected as by
`operator_delete` (lines 111-118). -/
def Table.updateOp [DecidableEq α] (cmp : α → α → Ordering) (fixed : Nat → Bool) (t : Table α) (e : Option (Ex α))
    (sets : List (SetEx α)) (limit : Int) : Res (Table α × List (List (Cell α)) × List Nat) :=
  (t.scanOp cmp e limit).bind fun o =>
    match o with
    | none => .ok (t, [], [])
    | some p =>
      if p.out.ids.length = 0 then .ok (t, [], [])
      else
        (runRows sets p.out.cols (List.range p.out.ids.length)).bind fun rs =>
          (pokeRows fixed t (p.out.ids.zip rs)).bind fun t1 =>
            (t1.update p.rowIds ⟨p.out.ids.length, colsOf p.out.cols.length (rs.map RowUpd.row)⟩).map' fun t2 =>
              (t2, rs.map RowUpd.row, ((List.range rs.length).zip rs).filterMap fun q => if q.2.modified then some q.1 else none)

/-! ## What is expected -/

/-- The value of a right side for a row. -/
def UEx.value (row : List (Cell α)) : UEx α → Cell α
  | .get j => (row[j]?).join
  | .val c => c
  | .calc f l r => f (l.value row) (r.value row)

/-- A row after `SET c₁ = e₁, c₂ = e₂, ...`: every right side is about the row before the statement. -/
def newRow (sets : List (SetEx α)) (row : List (Cell α)) : List (Cell α) :=
  sets.foldl (fun r x => r.set x.col (x.rhs.value row)) row

/-- The table after the statement: the rows `ids` have new cells, all others keep theirs. -/
def Ideal.setRows (s : Ideal α) (sets : List (SetEx α)) (ids : List Nat) : Ideal α :=
  { s with cols := s.cols.mapIdx fun j l => l.mapIdx fun i c => if i ∈ ids then ((newRow sets (s.row i))[j]?).join else c }

/-- The columns a right side reads. -/
def UEx.reads : UEx α → List Nat
  | .get j => [j]
  | .val _ => []
  | .calc _ l r => l.reads ++ r.reads

/-- The columns of the statement exist and none is set twice. -/
structure SetsFit (sets : List (SetEx α)) (w : Nat) : Prop where
  cols : ∀ x ∈ sets, x.col < w
  reads : ∀ x ∈ sets, ∀ j ∈ x.rhs.reads, j < w
  once : (sets.map SetEx.col).Nodup

/-- No right side reads a column that was set before it in the same statement. -/
def Separate (sets : List (SetEx α)) : Prop := sets.Pairwise fun x y => x.col ∉ y.rhs.reads

end Verif.Table
