import Verif.Table.Filter
import Verif.Query.Model
/-!
Model of the table operators of components/physical_plan/table/operators: `full_scan`,
`transfer_scan` and `operator_delete` without USING, over `Verif.Table.Model`.

Simplifications: names of columns are resolved to their numbers; expressions are comparisons of a
column with a constant, conjunctions, disjunctions and `all_true`; there are no indexes.
-/
namespace Verif.Table
open Verif
open Verif.Mvcc (CAP)

variable {α : Type}

/-- A condition, components/expressions/compare_expression.hpp. -/
inductive Ex (α : Type) where
  | allTrue
  | cmp (op : FOp) (col : Nat) (c : α)
  | and (l : List (Ex α))
  | or (l : List (Ex α))

mutual
/-- `transform_predicate` below the top, full_scan.cpp:8-51: a child `all_true` becomes a null
pointer. -/
def Ex.flt : Ex α → Flt α
  | .allTrue => .null
  | .cmp op col c => .const col op c
  | .and l => .and (Ex.flts l)
  | .or l => .or (Ex.flts l)
/-- The loops of lines 19-24 and 30-35. -/
def Ex.flts : List (Ex α) → List (Flt α)
  | [] => []
  | e :: es => e.flt :: Ex.flts es
end

/-- `transform_predicate`, full_scan.cpp:8-51: no filter for no condition and for `all_true`. -/
def transform : Option (Ex α) → Option (Flt α)
  | none => none
  | some .allTrue => none
  | some e => some e.flt

/-- The chunk of a scan operator: its rows, whether its vectors are dictionaries (row_group.cpp:254,
272-324: after a filter or where rows were deleted) and the first row of the scanned vector. A
dictionary shows the position of a row in that vector; `data_chunk_t::row_ids` is zero for all
rows, since nothing sets it (data_chunk.cpp:12, row_group.cpp:220-333). -/
structure Picked (α : Type) where
  out : Out α
  dict : Bool
  base : Nat

/-- `set_cardinality` of lines 80-82 (full_scan.cpp) and 29-31 (transfer_scan.cpp). -/
def cut (limit : Int) (o : Out α) : Out α :=
  if 0 ≤ limit then ⟨o.ids.take limit.toNat, o.cols.map (·.take limit.toNat)⟩ else o

/-- The chunk after the scan that ended in `st`. -/
def pickedOf (t : Table α) (flt : Option (Flt α)) (limit : Int) (st : ScanSt) (o : Out α) : Res (Picked α) :=
  match st.grp with
  | none => .ok ⟨cut limit o, false, 0⟩
  | some gi =>
    match t.groups[gi]? with
    | none => .ub
    | some g => .ok ⟨cut limit o, flt.isSome || decide (o.ids.length ≠ min CAP (st.maxRow - (st.vec - 1) * CAP)),
        g.start + (st.vec - 1) * CAP⟩

/-- `full_scan::on_execute_impl`, full_scan.cpp:60-83, and, for no condition,
`transfer_scan::on_execute_impl`, transfer_scan.cpp:11-32: one call of `data_table_t::scan` for all
columns. `none` is no output. -/
def Table.scanOp (cmp : α → α → Ordering) (t : Table α) (e : Option (Ex α)) (limit : Int) : Res (Option (Picked α)) :=
  if Query.limOk limit 0 then
    (t.initScan (List.range t.tys.length)).bind fun st =>
      (t.scan cmp (List.range t.tys.length) (transform e) st).bind fun r =>
        (pickedOf t (transform e) limit r.1 r.2).map' some
  else .ok none

/-- The ids `operator_delete` collects, operator_delete.cpp:68-78, for no condition of its own. -/
def Picked.rowIds (p : Picked α) : List Nat := if p.dict then p.out.ids.map (· - p.base) else p.out.ids.map fun _ => 0

/-- DELETE without USING: `operator_delete` (operator_delete.cpp:56-87) over the scan operator, as
create_plan_delete.cpp puts them together. The table after it and the rows reported as deleted
(`modified_`). -/
def Table.deleteOp (cmp : α → α → Ordering) (t : Table α) (e : Option (Ex α)) (limit : Int) : Res (Table α × List Nat) :=
  (t.scanOp cmp e limit).bind fun o =>
    match o with
    | none => .ok (t, [])
    | some p => (t.delete p.rowIds).map' fun r => (r.1, p.rowIds)

/-! ## What is expected -/

mutual
/-- A row satisfies a condition; a comparison with NULL does not hold. -/
def Ex.holds (cmp : α → α → Ordering) (row : List (Cell α)) : Ex α → Bool
  | .allTrue => true
  | .cmp op col c =>
    match row[col]? with
    | some (some x) => op.sat (cmp x c)
    | _ => false
  | .and l => Ex.all cmp row l
  | .or l => Ex.any cmp row l
/-- All conditions of a list hold. -/
def Ex.all (cmp : α → α → Ordering) (row : List (Cell α)) : List (Ex α) → Bool
  | [] => true
  | e :: es => Ex.holds cmp row e && Ex.all cmp row es
/-- One condition of a list holds. -/
def Ex.any (cmp : α → α → Ordering) (row : List (Cell α)) : List (Ex α) → Bool
  | [] => false
  | e :: es => Ex.holds cmp row e || Ex.any cmp row es
end

mutual
/-- A condition made of comparisons whose columns satisfy `p`, without `all_true`. -/
def Ex.On (p : Nat → Prop) : Ex α → Prop
  | .allTrue => False
  | .cmp _ col _ => p col
  | .and l => Ex.AllOn p l
  | .or l => Ex.AllOn p l
/-- The same for the conditions of a list. -/
def Ex.AllOn (p : Nat → Prop) : List (Ex α) → Prop
  | [] => True
  | e :: es => Ex.On p e ∧ Ex.AllOn p es
end

/-- The rows a limit lets through: all for -1, else the first `limit`. -/
def first (limit : Int) (l : List Nat) : List Nat := if limit = -1 then l else l.take limit.toNat

/-- The rows of a statement with this condition. -/
def Ideal.chosen (cmp : α → α → Ordering) (s : Ideal α) (e : Option (Ex α)) (limit : Int) : List Nat :=
  first limit (s.live.filter fun i => match e with
    | none => true
    | some e => e.holds cmp (s.row i))

/-- The output has these rows with their cells; no output stands for none. -/
def Shows (s : Ideal α) (w : Nat) (rows : List Nat) : Option (Picked α) → Prop
  | none => rows = []
  | some p => p.out.ids = rows ∧ p.out.cols.length = w ∧
      ∀ (j : Nat) (col l : List (Cell α)), p.out.cols[j]? = some col → s.cols[j]? = some l → col.map some = rows.map fun i => l[i]?

end Verif.Table
