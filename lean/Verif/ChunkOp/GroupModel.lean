import Verif.ChunkOp.Model
/-!
Model of grouping and aggregates on chunks: components/physical_plan/table/operators/operator_group.cpp and aggregate/*.cpp.

Simplifications: as in `Model.lean`; the rows of a group go through a chunk to the aggregates, which gives them back
unchanged (`copied_fill` in `Cond.lean`); addition of other values than integers and the division of `double` are parameters.
-/
namespace Verif.ChunkOp
open Verif Verif.Num Verif.PhysKey Verif.LogVal

/-- Operations left as parameters: the sum of two values that are not both integers, and `double` division. -/
structure Fl where
  add : LV → LV → Res LV
  div : FVal → FVal → FVal

/-- `group_key_t`, operator_group.hpp:11-14: the name asked for and the column of its getter (get/simple_value.cpp:13-21). -/
structure GKey where
  name : Bytes
  field : Bytes
deriving DecidableEq, Repr

/-- The aggregates and their columns. -/
inductive Agg where
  | count
  | sum (f : Bytes)
  | avg (f : Bytes)
  | min (f : Bytes)
  | max (f : Bytes)
deriving DecidableEq, Repr

/-- `key_impl`: the names "count", "sum", "avg", "min" and "max" of the results, operator_count.cpp:6, operator_sum.cpp:6,
operator_avg.cpp:6, operator_min.cpp:6, operator_max.cpp:6. -/
def Agg.kind : Agg → Bytes
  | .count => [99, 111, 117, 110, 116]
  | .sum _ => [115, 117, 109]
  | .avg _ => [97, 118, 103]
  | .min _ => [109, 105, 110]
  | .max _ => [109, 97, 120]

/-- `logical_value_t::sum`, logical_value.cpp:720-763. -/
def addV (fl : Fl) : LV → LV → Res LV
  | .int t a, .int u b => LV.arith .sum (.int t a) (.int u b)
  | a, b => fl.add a b

/-- The loop of operator_sum.cpp:21-24. -/
def sumOf (fl : Fl) : LV → List LV → Res LV
  | acc, [] => .ok acc
  | acc, v :: vs => (addV fl acc v).bind fun acc' => sumOf fl acc' vs

/-- The loop of operator_min.cpp:26-31. -/
def minOf : LV → List LV → LV
  | m, [] => m
  | m, v :: vs => minOf (if v.lt m then v else m) vs

/-- The loop of operator_max.cpp:26-31. -/
def maxOf : LV → List LV → LV
  | m, [] => m
  | m, v :: vs => maxOf (if m.lt v then v else m) vs

/-- The type of the first column of a name, `std::find_if` of operator_sum.cpp:15-17. -/
def colTy : Cols → Bytes → Option Ty
  | [], _ => none
  | (n, ty) :: cs, k => if n = k then some ty else colTy cs k

/-- The values of a column. -/
def col (cs : Cols) (f : Bytes) (rows : List (List LV)) : List LV := rows.filterMap fun r => valueOf cs r f

/-- `sum_.cast_as(DOUBLE).value<double>()`, operator_avg.cpp:27: the null value has no `double`. -/
def asDouble (v : LV) : Res FVal :=
  match v.cast 24 with
  | .double f => .ok f
  | _ => .throws

/-- `aggregate_impl`, operator_count.cpp:11-20, operator_sum.cpp:12-32, operator_avg.cpp:12-35, operator_min.cpp:12-39,
operator_max.cpp:12-39. -/
def Agg.run (fl : Fl) (cs : Cols) (rows : List (List LV)) : Agg → Res LV
  | .count => .ok (.int .u64 rows.length)
  | .sum f =>
    match colTy cs f with
    | none => .ok .na
    | some ty => sumOf fl ty.zero (col cs f rows)
  | .avg f =>
    match colTy cs f with
    | none => .ok .na
    | some ty => (sumOf fl ty.zero (col cs f rows)).bind fun s => (asDouble s).map' fun x => .double (fl.div x (ofInt 53 rows.length))
  | .min f =>
    match colTy cs f, col cs f rows with
    | some _, v :: vs => .ok (minOf v vs)
    | _, _ => .ok .na
  | .max f =>
    match colTy cs f, col cs f rows with
    | some _, v :: vs => .ok (maxOf v vs)
    | _, _ => .ok .na

/-- A group: a row of `transposed_output_` with the names of its values, and its `inputs_`. -/
structure G where
  out : List (Bytes × LV)
  inputs : List (List LV)

/-- The key of a row, operator_group.cpp:63-72: `none` if a column is missing. -/
def keyRow (cs : Cols) : List GKey → List LV → Option (List (Bytes × LV))
  | [], _ => some []
  | k :: ks, r =>
    match valueOf cs r k.field with
    | none => none
    | some v => if v = .na then none else (keyRow cs ks r).map ((k.name, v) :: ·)

/-- `new_row == transposed_output_[i]`, operator_group.cpp:76. -/
def rowEq : List (Bytes × LV) → List (Bytes × LV) → Bool
  | [], [] => true
  | a :: as, b :: bs => a.2.eq b.2 && rowEq as bs
  | _, _ => false

/-- The row joins the first group with its key or starts one, operator_group.cpp:74-87. -/
def addRow (key : List (Bytes × LV)) (r : List LV) : List G → List G
  | [] => [⟨key, [r]⟩]
  | g :: gs => if rowEq key g.out then { g with inputs := g.inputs ++ [r] } :: gs else g :: addRow key r gs

/-- The loop of `create_list_rows`, operator_group.cpp:59-89. -/
def groupRows (cs : Cols) (keys : List GKey) : List (List LV) → List G → List G
  | [], gs => gs
  | r :: rs, gs =>
    match keyRow cs keys r with
    | some key => groupRows cs keys rs (addRow key r gs)
    | none => groupRows cs keys rs gs

/-- `set_value`, operator_aggregate.cpp:11-20: in place of a value of that name, or at the end. The name asked for (`key`) is
not used. -/
def setValue (kind : Bytes) (v : LV) : List (Bytes × LV) → List (Bytes × LV)
  | [] => [(kind, v)]
  | x :: xs => if x.1 = kind then (kind, v) :: xs else x :: setValue kind v xs

/-- The inner loop of `calc_aggregate_values`, operator_group.cpp:96-105; with it the last result. -/
def aggGroups (fl : Fl) (cs : Cols) (a : Agg) : List G → LV → Res (List G × LV)
  | [], last => .ok ([], last)
  | g :: gs, _ => (a.run fl cs g.inputs).bind fun v =>
    (aggGroups fl cs a gs v).map' fun o => ({ g with out := setValue a.kind v g.out } :: o.1, o.2)

/-- `calc_aggregate_values`, operator_group.cpp:92-108; with the types of the results. -/
def aggAll (fl : Fl) (cs : Cols) : List Agg → List G → Res (List G × List (Bytes × Nat))
  | [], gs => .ok (gs, [])
  | a :: as, gs => (aggGroups fl cs a gs .na).bind fun o =>
    (aggAll fl cs as o.1).map' fun o' => (o'.1, (a.kind, o.2.code) :: o'.2)

/-- The types of the keys, from the first row, operator_group.cpp:50-57: their names are those of the columns. -/
def keyTypes (cs : Cols) (keys : List GKey) : List (List LV) → List (Bytes × Nat)
  | [] => []
  | r :: _ => keys.filterMap fun k =>
    match valueOf cs r k.field with
    | some v => if v = .na then none else some (k.field, v.code)
    | none => none

/-- `vector_t::set_value`, vector.cpp:419-546, on a column of a type by number. -/
def store (conv : Nat → LV → LV) (code : Nat) (v : LV) : Cell :=
  if v = .na then none
  else if v.code = code then some v
  else if conv code v = .na then none else some (conv code v)

/-- A row of the result, transformation.cpp:28-30: a row with fewer values than types is read beyond its end. -/
def outRow (conv : Nat → LV → LV) : List (Bytes × Nat) → List (Bytes × LV) → Res Row
  | [], _ => .ok []
  | _ :: _, [] => .ub
  | t :: ts, v :: vs => (outRow conv ts vs).map' (store conv t.2 v.2 :: ·)

/-- The rows of the result, transformation.cpp:23-34. -/
def outRows (conv : Nat → LV → LV) (ts : List (Bytes × Nat)) : List G → Res (List Row)
  | [] => .ok []
  | g :: gs => (outRow conv ts g.out).bind fun r => (outRows conv ts gs).map' (r :: ·)

/-- `operator_group_t::on_execute_impl`, operator_group.cpp:34-44: the columns and the rows of the result. -/
def groupOp (fl : Fl) (conv : Nat → LV → LV) (keys : List GKey) (aggs : List Agg) (c : Ch) : Res (List (Bytes × Nat) × List Row) :=
  let rows := c.rows.map (values c.cols)
  (aggAll fl c.cols aggs (groupRows c.cols keys rows [])).bind fun o =>
    (outRows conv (keyTypes c.cols keys rows ++ o.2) o.1).map' fun out => (keyTypes c.cols keys rows ++ o.2, out)

end Verif.ChunkOp
