import Verif.Query.SortModel
import Verif.Query.AggModel
import Verif.Query.JoinModel
/-!
Model of the translation of SQL statements to query plans (components/sql/transformer) and of the plans of SELECT and
DELETE (components/physical_plan_generator/impl, components/physical_plan/collection/operators/aggregation.cpp).

The parser is not modelled: a statement is the tree it gives.  Simplifications: constants are values, the tape they are
written to is the subject of `DocVal`; collections have no indexes; names of tables are those of the statement; one
schema, so a column reference is at most a table and a name.
-/
namespace Verif.Sql

open Verif.DocVal Verif.Query

/-! ### conditions -/

/-- A constant as the parser gives it: `TRUE` and `FALSE` (a `TypeCast` of a text), a text, an integer of 32 bits
(scan.l:1181-1201), any other numeral (`T_Float`: with the bits of the `double` nearest to it and of that `double` as
`float`), NULL. -/
inductive Lit where
  | bool (b : Bool)
  | str (s : Bytes)
  | int (n : Int)
  | num (d : UInt64) (f : UInt32)
  | null
deriving DecidableEq, Repr

/-- A side of a comparison: a column, a constant, any other expression (with the value SQL gives it). -/
inductive Operand where
  | col (table : Option Bytes) (name : Bytes)
  | lit (l : Lit)
  | expr (value : Doc → Cell)

/-- The name of an operator of two operands. -/
inductive Op where
  | cmp (c : Cmp)
  | regexp
  | like
  | other
deriving DecidableEq, Repr

/-- A condition: an `A_Expr` of the kinds `OP`, `AND`, `OR`, `NOT`, of another kind (IN, DISTINCT FROM, ...), a function
call, or a node that is neither (a column, a constant, IS NULL, a subquery). -/
inductive Cond where
  | op (o : Op) (x y : Operand)
  | and (l r : Cond)
  | or (l r : Cond)
  | not (c : Cond)
  | kind
  | func
  | node

/-- `get_value`, transfrom_common.cpp:8-38: the value of a constant; a numeral is narrowed to `float`; NULL falls
through to the case of a column and is read as one; an expression is null. -/
def getValue : Operand → Res V
  | .lit (.bool b) => .ok (.bool b)
  | .lit (.str s) => .ok (.str s)
  | .lit (.int n) => .ok (.int .i64 n)
  | .lit (.num _ f) => .ok (.float f)
  | .lit .null => .ub
  | .col _ k => .ok (.str k)
  | .expr _ => .ok .na

/-- `parameter_node_t::add_parameter`, param_storage.hpp:76-80, param_storage.cpp:25-29: the next number, of 16 bits, and
the parameters so far. -/
def addParam (v : V) (ps : List V) : Nat × List V := (ps.length % 2 ^ 16, ps ++ [v])

/-- The parameter with a number: `emplace` (param_storage.hpp:45-48) keeps the first of a number. -/
def paramOf (ps : List V) (n : Nat) : Option V := ps[n]?

/-- `get_compare_type`, sql/transformer/utils.hpp:56-75, and the expression made with it: LIKE is a regular
expression. -/
def leafOf (o : Op) (k : Bytes) (r : Rhs) : Res Leaf :=
  match o with
  | .cmp c => .ok (.cmp c k r)
  | .regexp => .ok (.regex k r)
  | .like => .ok (.regex k r)
  | .other => .throws

/-- The case `AEXPR_OP` of `transform_a_expr`, transfrom_common.cpp:87-119: of a column reference the last name; with a
column on the right only, the comparison is made from the right side with the same operator; without a column the right
side is read as one. -/
def trOp (o : Op) (x y : Operand) (ps : List V) : Res (Filter Leaf × List V) :=
  match x, y with
  | .col _ k, .col _ k' => (leafOf o k (.key k')).bind fun a => .ok (.leaf a, ps)
  | .col _ k, y => (getValue y).bind fun v => (leafOf o k (.param (addParam v ps).1)).bind fun a => .ok (.leaf a, (addParam v ps).2)
  | x, .col _ k => (getValue x).bind fun v => (leafOf o k (.param (addParam v ps).1)).bind fun a => .ok (.leaf a, (addParam v ps).2)
  | _, _ => .ub

/-- The children `append` adds to an AND, transfrom_common.cpp:74-84. -/
def andParts : Filter Leaf → List (Filter Leaf)
  | .and fs => fs
  | f => [f]

/-- The children `append` adds to an OR, transfrom_common.cpp:74-84. -/
def orParts : Filter Leaf → List (Filter Leaf)
  | .or fs => fs
  | f => [f]

/-- The children of a NOT, transfrom_common.cpp:132-139: those of a NOT below it. -/
def notParts : Filter Leaf → List (Filter Leaf)
  | .not fs => fs
  | f => [f]

/-- `transform_a_expr`, transfrom_common.cpp:40-145, without a place for a function (`func_node` is null): a side that is
no `A_Expr` is read as a function call, whose node is stored through the null pointer. -/
def tr : Cond → List V → Res (Filter Leaf × List V)
  | .op o x y, ps => trOp o x y ps
  | .and l r, ps => (tr l ps).bind fun a => (tr r a.2).bind fun b => .ok (.and (andParts a.1 ++ andParts b.1), b.2)
  | .or l r, ps => (tr l ps).bind fun a => (tr r a.2).bind fun b => .ok (.or (orParts a.1 ++ orParts b.1), b.2)
  | .not c, ps => (tr c ps).bind fun a => .ok (.not (notParts a.1), a.2)
  | .kind, _ => .throws
  | .func, _ => .ub
  | .node, _ => .ub

/-- The WHERE clause of a SELECT, transform_select.cpp:166-178, where a function has a place: a function, alone or as a
side of the outermost AND, OR, NOT, becomes a node over the plan, which has no physical plan (create_plan.cpp): the
statement is refused. -/
def trWhere : Cond → List V → Res (Filter Leaf × List V)
  | .func, _ => .throws
  | .and .func r, ps => (tr r ps).bind fun _ => .throws
  | .or .func r, ps => (tr r ps).bind fun _ => .throws
  | .and l .func, ps => (tr l ps).bind fun _ => .throws
  | .or l .func, ps => (tr l ps).bind fun _ => .throws
  | .not .func, _ => .throws
  | c, ps => tr c ps

/-! ### SELECT -/

/-- The functions of `get_aggregate_type`, utils.hpp:77-91; any other is `invalid`. -/
inductive Fn where
  | count | sum | min | max | avg | other
deriving DecidableEq, Repr

/-- An item of the list of a SELECT: `*`, a column, a constant, a function of a column, `count(*)`, anything else. -/
inductive Target where
  | star
  | col (table : Option Bytes) (name : Bytes) (label : Option Bytes)
  | lit (l : Lit) (label : Bytes)
  | call (f : Fn) (table : Option Bytes) (name : Bytes) (label : Bytes)
  | callStar (f : Fn)
  | other
deriving DecidableEq, Repr

/-- A SELECT of one collection; `label` of a constant or call is the name of its column, given or made up. -/
structure Select where
  targets : List Target
  cond : Option Cond
  group : List Bytes
  order : List SortKey
  limit : Option Nat

/-- An expression of the group node: a key (name, field), an aggregate, an aggregate of an unknown function, a
constant. -/
inductive GExpr where
  | key (name field : Bytes)
  | agg (name : Bytes) (a : Agg)
  | invalid (name : Bytes)
  | const (name : Bytes)
deriving DecidableEq, Repr

/-- The aggregate of a function and a field. -/
def aggOf (f : Fn) (name field : Bytes) : GExpr :=
  match f with
  | .count => .agg name .count
  | .sum => .agg name (.sum field)
  | .min => .agg name (.min field)
  | .max => .agg name (.max field)
  | .avg => .agg name (.avg field)
  | .other => .invalid name

/-- The loop over the targets, transform_select.cpp:107-164.  The argument of a function is the first part of the column
reference, 113-114; `*` adds nothing; `count(*)` reads the first of no arguments. -/
def trTargets : List Target → List V → Res (List GExpr × List V)
  | [], ps => .ok ([], ps)
  | .star :: ts, ps => trTargets ts ps
  | .col _ n l :: ts, ps => (trTargets ts ps).bind fun r => .ok (.key (l.getD n) n :: r.1, r.2)
  | .lit v l :: ts, ps => (getValue (.lit v)).bind fun x => (trTargets ts (ps ++ [x])).bind fun r => .ok (.const l :: r.1, r.2)
  | .call f t n l :: ts, ps => (trTargets ts ps).bind fun r => .ok (aggOf f l (t.getD n) :: r.1, r.2)
  | .callStar _ :: _, _ => .ub
  | .other :: _, _ => .throws

/-- The logical plan of a SELECT: the children of the aggregate node and the parameters. -/
structure Plan where
  filter : Option (Filter Leaf)
  group : List GExpr
  sort : List SortKey
  params : List V

/-- `transform_select`, transform_select.cpp:87-217, from one collection: targets, then WHERE; GROUP BY (180-184) and
LIMIT are not looked at. -/
def trSelect (s : Select) : Res Plan :=
  (trTargets s.targets []).bind fun g =>
    match s.cond with
    | none => .ok ⟨none, g.1, s.order, g.2⟩
    | some c => (trWhere c g.2).bind fun f => .ok ⟨some f.1, g.1, s.order, f.2⟩

/-- `create_plan_group`, create_plan_group.cpp: keys and aggregates; the key of a constant is no name, which throws; an
unknown aggregate is left out. -/
def groupPlan : List GExpr → Res (List (Bytes × Bytes) × List (Bytes × Agg))
  | [] => .ok ([], [])
  | .key n f :: es => (groupPlan es).bind fun r => .ok ((n, f) :: r.1, r.2)
  | .agg n a :: es => (groupPlan es).bind fun r => .ok (r.1, (n, a) :: r.2)
  | .invalid _ :: es => groupPlan es
  | .const _ :: _ => .throws

/-- The rows before the sort, aggregation.cpp:18-40: the match or all documents, then the groups if there are
expressions.  The rows of groups are documents without `_id`. -/
def rowsOf (fpu : Fpu) (rx : Bytes → Bytes → Res Bool) (store : List Doc) (p : Plan) : Res (List Doc) :=
  (match p.filter with
    | some f => fullScan (-1) (pred ⟨paramOf p.params, rx⟩ f) store
    | none => transferScan (-1) store).bind fun out =>
  match p.group, out with
  | [], some ds => .ok ds
  | [], none => .ok []
  | _ :: _, none => .ok []
  | g :: gs, some ds => (groupPlan (g :: gs)).bind fun k => (groupOp fpu k.1 k.2 ds).bind fun rs => .ok (rs.map fun (x : Group) => ⟨0, x.row⟩)

/-- The outcomes of a SELECT: the rows, sorted if there is an ORDER BY. -/
def runSelect (fpu : Fpu) (rx : Bytes → Bytes → Res Bool) (store : List Doc) (s : Select) (r : Res (List Doc)) : Prop :=
  match (trSelect s).bind (rowsOf fpu rx store) with
  | .ok rows => if s.order = [] then r = .ok rows else sortOp s.order rows r
  | e => r = e

/-! ### DELETE and joins -/

/-- `transform_delete`, transform_delete.cpp:9-31, and its plan: all documents without WHERE (a USING is then not looked
at), those of the filter, or those with a partner in the other collection. -/
def runDelete (rx : Bytes → Bytes → Res Bool) (c : Option Cond) (other : Option (List Doc)) (store : List Doc) : Res (List Doc × Option (List Nat)) :=
  match c with
  | none => deleteMatch (-1) (pred ⟨fun _ => none, rx⟩ (.leaf .allTrue)) store
  | some c => (tr c []).bind fun f =>
    match other with
    | none => deleteMatch (-1) (pred ⟨paramOf f.2, rx⟩ f.1) store
    | some o => deleteUsing (-1) (pred2 ⟨paramOf f.2, rx⟩ f.1) store o

/-- `SELECT * FROM l JOIN r ON c`, transform_select.cpp:19-85, with the kind of join (`jointype_to_ql`,
utils.hpp:40-54). -/
def runJoin (rx : Bytes → Bytes → Res Bool) (text : Nat → Bytes) (t : JoinType) (c : Cond) (ls rs : List Doc) : Res (List Row) :=
  (tr c []).bind fun f => joinOp ⟨paramOf f.2, rx⟩ text t f.1 ls rs

end Verif.Sql
