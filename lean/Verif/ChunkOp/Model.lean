import Verif.DocVal.Model
import Verif.Query.Model
import Verif.Query.SortModel
import Verif.Query.JoinModel
import Verif.Query.IndexModel
/-!
Model of the operators on chunks of rows, components/physical_plan/table/operators: conditions (check_expr.cpp),
`operator_match_t`, `operator_join_t`, `operator_sort_t`.

A chunk is the names and types of its columns and its rows; a cell is NULL (`none`) or a value of the type of
its column. That the null flags of different rows do not influence each other is C40_set.

Simplifications: columns of booleans, integers of up to 64 bits, floating point numbers and strings; the values of
parameters are scalars; a floating point value is the number it stands for; chunks have at least one column; the
conversion of a value to the type of another column (`cast_as`, logical_value.cpp:335-424) is a parameter `conv`.
-/
namespace Verif.ChunkOp
open Verif Verif.Num Verif.PhysKey Verif.LogVal
open Verif.DocVal (V)

/-- The type of a column. -/
inductive Ty where
  | bool
  | int (t : ITy)
  | float
  | double
  | str
deriving DecidableEq, Repr

/-- `logical_value_t(type)`, logical_value.cpp:8-63: the zero of a type. -/
def Ty.zero : Ty → LV
  | .bool => .bool false
  | .int t => .int t 0
  | .float => .float (.fin 0)
  | .double => .double (.fin 0)
  | .str => .str []

/-- The number of a type, types.hpp:75-124. -/
def Ty.code (ty : Ty) : Nat := ty.zero.code

/-- A cell: NULL or a value. -/
abbrev Cell := Option LV
abbrev Row := List Cell
/-- Name (alias) and type of each column. -/
abbrev Cols := List (Bytes × Ty)

/-- `data_chunk_t`: columns, rows below the cardinality, and what lies between the cardinality and the capacity. -/
structure Ch where
  cols : Cols
  rows : List Row
  spare : List Row

/-- `vector_t::value`, vector.cpp:550-648 and 772-781: of a NULL cell the zero of its type. -/
def read (ty : Ty) (c : Cell) : LV := c.getD ty.zero

/-- The values of a row. -/
def values : Cols → Row → List LV
  | (_, ty) :: cs, c :: r => read ty c :: values cs r
  | _, _ => []

/-- `vector_t::set_value`, vector.cpp:419-546. -/
def write (conv : Ty → LV → LV) (ty : Ty) (v : LV) : Cell :=
  if v = .na then none
  else if v.code = ty.code then some v
  else if conv ty v = .na then none else some (conv ty v)

/-- The index of a name in the `unordered_map` of the names (`emplace` keeps the first), operator_match.cpp:24-27;
`at` throws for other names. -/
def index : Cols → Bytes → Res Nat
  | [], _ => .throws
  | (n, _) :: cs, k => if n = k then .ok 0 else (index cs k).map' (· + 1)

/-- `chunk.data.at(str_index_map.at(name)).value(row)`. -/
def lookup (cs : Cols) (r : Row) (k : Bytes) : Res LV :=
  (index cs k).bind fun i =>
    match (values cs r)[i]? with
    | some v => .ok v
    | none => .ub

/-! ### conditions -/

inductive Op where
  | eq | ne | gt | lt | gte | lte
deriving DecidableEq, Repr

/-- The right side: a parameter or a column, compare_expression.hpp:42-45. -/
inductive Rhs where
  | param (n : Nat)
  | key (k : Bytes)
deriving DecidableEq, Repr

/-- A condition; `always` is a null pointer, `member` the types any and all, `other` the remaining ones. -/
inductive Ex where
  | always
  | cmp (op : Op) (l : Bytes) (r : Rhs)
  | and (l : List Ex)
  | or (l : List Ex)
  | not (e : Ex)
  | allTrue
  | allFalse
  | member
  | other

/-- `std::equal_to<>` ... on integers. -/
def opInt (op : Op) (a b : Int) : Bool :=
  match op with
  | .eq => decide (a = b)
  | .ne => decide (a ≠ b)
  | .gt => decide (b < a)
  | .lt => decide (a < b)
  | .gte => decide (b ≤ a)
  | .lte => decide (a ≤ b)

/-- `==` on floating point numbers. -/
def feq : FVal → FVal → Bool
  | .fin a, .fin b => decide (a = b)
  | .pinf, .pinf => true
  | .ninf, .ninf => true
  | _, _ => false

/-- The same on floating point numbers. -/
def opF (op : Op) (a b : FVal) : Bool :=
  match op with
  | .eq => feq a b
  | .ne => !feq a b
  | .gt => FVal.lt b a
  | .lt => FVal.lt a b
  | .gte => FVal.lt b a || feq a b
  | .lte => FVal.lt a b || feq a b

/-- The same on strings. -/
def opS (op : Op) (a b : Bytes) : Bool :=
  match op with
  | .eq => decide (a = b)
  | .ne => decide (a ≠ b)
  | .gt => bytesLt b a
  | .lt => bytesLt a b
  | .gte => !bytesLt a b
  | .lte => !bytesLt b a

/-- A boolean as a number. -/
def bit (b : Bool) : Int := if b then 1 else 0

/-- The switch of check_expr.cpp:20-51: both values are taken as the type of the left one; `std::get` throws for
another type. -/
def cmpTwo (op : Op) : LV → LV → Res Bool
  | .bool a, .bool b => .ok (opInt op (bit a) (bit b))
  | .int t a, .int u b => if t = u then .ok (opInt op a b) else .throws
  | .float a, .float b => .ok (opF op a b)
  | .double a, .double b => .ok (opF op a b)
  | .str a, .str b => .ok (opS op a b)
  | _, _ => .throws

/-- The getters of `value_t` are `noexcept`, value.cpp:75-93: what they throw ends the process. -/
def hard {α : Type} : Res α → Res α
  | .throws => .ub
  | r => r

/-- The switch of check_expr.cpp:63-94. A string column reads any parameter as a string (`get_string_bytes`), left
out: undefined. -/
def cmpOne (op : Op) (x : LV) (v : V) : Res Bool :=
  match x with
  | .bool a => (hard v.getBool).map' fun b => opInt op (bit a) (bit b)
  | .int t a => if t.signed then (hard (v.getInt .i64)).map' fun b => opInt op a b else (hard (v.getInt .u64)).map' fun b => opInt op a b
  | .float a => (hard v.getFloat).map' fun b => opF op a b
  | .double a => (hard v.getDouble).map' fun b => opF op a b
  | .str a => (hard v.getStr).map' fun b => opS op a b
  | _ => .throws

/-- `parameters.at(id)`. -/
def param (ps : List V) (n : Nat) : Res V :=
  match ps[n]? with
  | some v => .ok v
  | none => .throws

/-- `check_expr` on two chunks, check_expr.cpp:5-52. -/
def leafTwo (ps : List V) (cl cr : Cols) (rl rr : Row) (op : Op) (l : Bytes) (r : Rhs) : Res Bool :=
  (lookup cl rl l).bind fun a =>
    match r with
    | .param n => (param ps n).bind fun v => cmpTwo op a (Query.logical v)
    | .key k => (lookup cr rr k).bind fun b => cmpTwo op a b

/-- `check_expr` on one chunk, check_expr.cpp:54-95: a column on the right is not looked at, its expression has the
parameter number 0 (compare_expression.cpp:22-32). -/
def leafOne (ps : List V) (cs : Cols) (row : Row) (op : Op) (l : Bytes) (r : Rhs) : Res Bool :=
  (lookup cs row l).bind fun a =>
    match r with
    | .param n => (param ps n).bind fun v => cmpOne op a v
    | .key _ => (param ps 0).bind fun v => cmpOne op a v

mutual
/-- `check_expr_general`, check_expr.cpp:97-204 and 206-277, over the comparison of a leaf. -/
def check (leaf : Op → Bytes → Rhs → Res Bool) : Ex → Res Bool
  | .always => .ok true
  | .cmp op l r => leaf op l r
  | .and l => checkAll leaf l
  | .or l => checkAny leaf l
  | .not e => (check leaf e).map' (!·)
  | .allTrue => .ok false
  | .allFalse => .ok false
  | .member => .ok false
  | .other => .throws
/-- The loop of lines 109-123. -/
def checkAll (leaf : Op → Bytes → Rhs → Res Bool) : List Ex → Res Bool
  | [] => .ok true
  | e :: es => (check leaf e).bind fun b => if b then checkAll leaf es else .ok false
/-- The loop of lines 124-138. -/
def checkAny (leaf : Op → Bytes → Rhs → Res Bool) : List Ex → Res Bool
  | [] => .ok false
  | e :: es => (check leaf e).bind fun b => if b then .ok true else checkAny leaf es
end

/-! ### operator_match -/

/-- `DEFAULT_VECTOR_CAPACITY`: the capacity of an output chunk, data_chunk.hpp:9-11. -/
def CAP : Nat := 1024

/-- A row copied value by value, operator_match.cpp:32-34. -/
def copied : Cols → List LV → Row
  | (_, ty) :: cs, v :: vs => write (fun _ v => v) ty v :: copied cs vs
  | _, _ => []

/-- The loop of operator_match.cpp:30-42; `n` is `count`. A write beyond the capacity is undefined. -/
def matchLoop (p : Row → Res Bool) (cs : Cols) (limit : Int) : List Row → Nat → Res (List Row)
  | [], _ => .ok []
  | r :: rs, n => (p r).bind fun b =>
    if b then
      if CAP ≤ n then .ub
      else if Query.limOk limit (n + 1) then (matchLoop p cs limit rs (n + 1)).map' (copied cs (values cs r) :: ·)
      else .ok [copied cs (values cs r)]
    else matchLoop p cs limit rs n

/-- `operator_match_t::on_execute_impl`, operator_match.cpp:13-44; `none` is no output. -/
def matchOp (ps : List V) (e : Ex) (limit : Int) (c : Ch) : Res (Option (List Row)) :=
  if Query.limOk limit 0 then (matchLoop (fun r => check (leafOne ps c.cols r) e) c.cols limit c.rows 0).map' some else .ok none

/-! ### operator_join -/

/-- The columns of the result, operator_join.cpp:38-45: those of the left side and those of the right side with other
names. -/
def joinCols (l r : Cols) : Cols :=
  r.foldl (fun acc c => if acc.any (fun d => d.1 == c.1) then acc else acc ++ [c]) l

/-- `set_value(name_index_map_res_.at(name), ...)` on a row of the result. -/
def put (conv : Ty → LV → LV) (res : Cols) (row : Row) (k : Bytes) (v : LV) : Res Row :=
  (index res k).bind fun i =>
    match res[i]? with
    | some c => .ok (row.set i (write conv c.2 v))
    | none => .ub

/-- The loop over the columns of one side, operator_join.cpp:105-110. -/
def putAll (conv : Ty → LV → LV) (res : Cols) : Cols → List LV → Row → Res Row
  | (k, _) :: cs, v :: vs, row => (put conv res row k v).bind fun row' => putAll conv res cs vs row'
  | _, _, row => .ok row

/-- A row of the result of the values of the left and of the right side, operator_join.cpp:105-110. What a new chunk holds
(here zeros) is overwritten in every column. -/
def joined (conv : Ty → LV → LV) (cl cr : Cols) (vl vr : List LV) : Res Row :=
  (putAll conv (joinCols cl cr) cl vl ((joinCols cl cr).map fun c => some c.2.zero)).bind fun row =>
    putAll conv (joinCols cl cr) cr vr row

/-- One more row at `res_index`, operator_join.cpp:105-111: beyond the capacity undefined. -/
def emit (out : List Row) (r : Res Row) : Res (List Row) :=
  if CAP ≤ out.length then .ub else r.map' fun row => out ++ [row]

/-- Inner loop of `inner_join_`, operator_join.cpp:103-113, for a left row. -/
def innerRow (p : Row → Row → Res Bool) (mk : Row → Row → Res Row) (l : Row) : List Row → List Row → Res (List Row)
  | [], out => .ok out
  | r :: rs, out => (p l r).bind fun b =>
    if b then (emit out (mk l r)).bind fun out' => innerRow p mk l rs out' else innerRow p mk l rs out

/-- `inner_join_`, operator_join.cpp:96-116, and the loops of `cross_join_`, 239-256. -/
def innerLoop (p : Row → Row → Res Bool) (mk : Row → Row → Res Row) (rs : List Row) : List Row → List Row → Res (List Row)
  | [], out => .ok out
  | l :: ls, out => (innerRow p mk l rs out).bind fun out' => innerLoop p mk rs ls out'

/-- Inner loop of the outer joins for a left row, operator_join.cpp:129-153, 179-201: a row of NULLs for every right
row before the first match. `seen` is `visited_left`; the second result the matches of the right rows. -/
def outerRow (p : Row → Row → Res Bool) (mk lone : Row → Row → Res Row) (l : Row) :
    List Row → Bool → List Row → Res (List Row × List Bool)
  | [], _, out => .ok (out, [])
  | r :: rs, seen, out => (p l r).bind fun b =>
    if b then (emit out (mk l r)).bind fun out' => (outerRow p mk lone l rs true out').map' fun o => (o.1, true :: o.2)
    else if seen then (outerRow p mk lone l rs seen out).map' fun o => (o.1, false :: o.2)
    else (emit out (lone l r)).bind fun out' => (outerRow p mk lone l rs seen out').map' fun o => (o.1, false :: o.2)

/-- The matches of the right rows so far: `visited_right`, operator_join.cpp:123, 132. -/
def orAll : List Bool → List Bool → List Bool
  | a :: as, b :: bs => (a || b) :: orAll as bs
  | as, _ => as

/-- The outer loop, operator_join.cpp:126-154, 177-202. -/
def outerLoop (p : Row → Row → Res Bool) (mk lone : Row → Row → Res Row) (rs : List Row) :
    List Row → List Bool → List Row → Res (List Row × List Bool)
  | [], vis, out => .ok (out, vis)
  | l :: ls, vis, out => (outerRow p mk lone l rs false out).bind fun o => outerLoop p mk lone rs ls (orAll vis o.2) o.1

/-- The right rows without match, operator_join.cpp:155-168. -/
def restRight (mk : Row → Res Row) : List Row → List Bool → List Row → Res (List Row)
  | r :: rs, v :: vs, out => if v then restRight mk rs vs out else (emit out (mk r)).bind fun out' => restRight mk rs vs out'
  | _, _, out => .ok out

/-- Row `i` of a chunk, also beyond its cardinality. -/
def Ch.at (c : Ch) (i : Nat) : Res Row :=
  match (c.rows ++ c.spare)[i]? with
  | some r => .ok r
  | none => .ub

/-- Inner loop of `outer_right_join_`, operator_join.cpp:213-235: `i` counts the rows of the right side and `j` those of
the left, but row `i` is read from the left side and row `j` from the right. -/
def rightRow (p : Row → Row → Res Bool) (mk : Row → Row → Res Row) (lone : Row → Res Row) (c d : Ch) (i : Nat) :
    Nat → Nat → Bool → List Row → Res (List Row)
  | 0, _, _, out => .ok out
  | n + 1, j, seen, out =>
    (c.at i).bind fun l => (d.at j).bind fun r => (p l r).bind fun b =>
      if b then (emit out (mk l r)).bind fun out' => rightRow p mk lone c d i n (j + 1) true out'
      else if seen then rightRow p mk lone c d i n (j + 1) seen out
      else (emit out (lone r)).bind fun out' => rightRow p mk lone c d i n (j + 1) seen out'

/-- `outer_right_join_`, operator_join.cpp:205-237. -/
def rightLoop (p : Row → Row → Res Bool) (mk : Row → Row → Res Row) (lone : Row → Res Row) (c d : Ch) : Nat → Nat → List Row → Res (List Row)
  | 0, _, out => .ok out
  | n + 1, i, out => (rightRow p mk lone c d i c.rows.length 0 false out).bind fun out' => rightLoop p mk lone c d n (i + 1) out'

/-- `operator_join_t::on_execute_impl`, operator_join.cpp:30-94, and the functions of the kinds of joins. Only
`inner_join_` sets the number of rows of the result (line 115); the other results keep the number of a new chunk, 0. -/
def joinOp (conv : Ty → LV → LV) (ps : List V) (t : Query.JoinType) (e : Ex) (c d : Ch) : Res (Cols × List Row) :=
  let p := fun l r => check (leafTwo ps c.cols d.cols l r) e
  let mk := fun l r => joined conv c.cols d.cols (values c.cols l) (values d.cols r)
  let loneL := fun l (_ : Row) => joined conv c.cols d.cols (values c.cols l) (d.cols.map fun _ => LV.na)
  let loneR := fun r => joined conv c.cols d.cols (c.cols.map fun _ => LV.na) (values d.cols r)
  let res := joinCols c.cols d.cols
  match t with
  | .inner => (innerLoop p mk d.rows c.rows []).map' fun out => (res, out)
  | .full => (outerLoop p mk loneL d.rows c.rows (d.rows.map fun _ => false) []).bind fun o =>
      (restRight loneR d.rows o.2 o.1).map' fun _ => (res, [])
  | .left => (outerLoop p mk loneL d.rows c.rows (d.rows.map fun _ => false) []).map' fun _ => (res, [])
  | .right => (rightLoop p mk loneR c d d.rows.length 0 []).map' fun _ => (res, [])
  | .cross => (innerLoop (fun _ _ => .ok true) mk d.rows c.rows []).map' fun _ => (res, [])

/-! ### operator_sort -/

/-- A key of `sorter_t` by name, sort/sort.cpp:16-38. The functions keep a reference to the name they were given; it is taken
to be alive. -/
structure SortKey where
  key : Bytes
  asc : Bool
deriving DecidableEq, Repr

/-- The value under a name, sort.cpp:19-24. -/
def valueOf : Cols → List LV → Bytes → Option LV
  | (n, _) :: cs, v :: vs, k => if n = k then some v else valueOf cs vs k
  | _, _, _ => none

/-- The comparison of one key, sort.cpp:25-36: `k_order` is -1 for ascending. -/
def SortKey.compare (cs : Cols) (k : SortKey) (a b : List LV) : Ordering :=
  let o := match valueOf cs a k.key, valueOf cs b k.key with
    | some x, some y => x.compare y
    | none, none => .eq
    | none, some y => LV.compare .na y
    | some x, none => x.compare .na
  if k.asc then o.swap else o

/-- `sorter_t::operator()`, sort/sort.hpp:29-40: true for rows no key tells apart. -/
def sorter (cs : Cols) : List SortKey → List LV → List LV → Bool
  | [], _, _ => true
  | k :: ks, a, b => match k.compare cs a b with
    | .lt => true
    | .gt => false
    | .eq => sorter cs ks a b

/-- `operator_sort_t::on_execute_impl`, operator_sort.cpp:20-30, with `transpose` (transformation.cpp:7-34): the rows as
values, `std::sort`, and back. A relation: the
outcome of `std::sort` is given by its contract. -/
def sortOp (keys : List SortKey) (c : Ch) (r : Res (List Row)) : Prop :=
  ∃ q, Query.StdSort (fun a b => .ok (sorter c.cols keys a b)) (c.rows.map (values c.cols)) q ∧ r = q.map' fun l => l.map (copied c.cols)

end Verif.ChunkOp
