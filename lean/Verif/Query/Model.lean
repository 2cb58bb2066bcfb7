import Verif.DocVal.Model
/-!
Model of filters, limits, scans and merges over a collection of documents
(components/physical_plan/collection/operators, components/logical_plan/node_limit.cpp).

Simplifications: a document is its `_id` and the list of its top level fields, an object or array in it is an opaque
`container`; the 12 bytes of an `_id` are one number; every document of a collection is valid; the parameters of a query
are values, never absent ones; the regular expression library is a parameter; lifetimes are left out.
-/
namespace Verif.Query

open Verif.DocVal

/-- A document: `document_t` with its `_id` (document_id.hpp). -/
structure Doc where
  id : Nat
  fields : List (Bytes × Cell)
deriving DecidableEq, Repr

/-- The field of a name: `find_node_const`, document.cpp:385-413, for a top level name. -/
def look (fs : List (Bytes × Cell)) (k : Bytes) : Cell :=
  match fs with
  | [] => .missing
  | (n, c) :: fs => if n = k then c else look fs k

/-- What a path of the document leads to. -/
def Doc.get (d : Doc) (k : Bytes) : Cell := look d.fields k

/-- `get_value`, document.cpp:661-680: no value for a missing field, an object or an array. -/
def Doc.value (d : Doc) (k : Bytes) : Option V :=
  match d.get k with
  | .scalar v => some v
  | _ => none

/-! ### filters -/

/-- `compare_type` of the comparisons, expressions/forward.hpp. -/
inductive Cmp where
  | eq | ne | gt | gte | lt | lte
deriving DecidableEq, Repr

/-- What each comparison accepts, simple_predicate.cpp:58-189. -/
def Cmp.ok : Cmp → Ordering → Bool
  | .eq, o => o == .eq
  | .ne, o => o != .eq
  | .gt, o => o == .gt
  | .gte, o => o == .eq || o == .gt
  | .lt, o => o == .lt
  | .lte, o => o == .eq || o == .lt

/-- Right side of a comparison: a parameter, or a field (`key_right`). -/
inductive Rhs where
  | param (n : Nat)
  | key (k : Bytes)
deriving DecidableEq, Repr

/-- A filter without `and`, `or`, `not`. -/
inductive Leaf where
  | cmp (c : Cmp) (key : Bytes) (rhs : Rhs)
  | regex (key : Bytes) (rhs : Rhs)
  | allTrue
  | allFalse
deriving DecidableEq, Repr

/-- `compare_expression_t`: leaves and unions (expressions/compare_expression.hpp). -/
inductive Filter (α : Type) where
  | leaf (a : α)
  | and (fs : List (Filter α))
  | or (fs : List (Filter α))
  | not (fs : List (Filter α))

/-- The parameters of the query (`storage_parameters`) and the regular expression library: whether a text contains a
match of a pattern. -/
structure Env where
  params : Nat → Option V
  rx : Bytes → Bytes → Res Bool

/-- The first four bytes of a 64-bit number, `get_string_bytes`, value.cpp:655-670: how a value that is no string is
read as one.  Numbers of 128 bits and floating point numbers are left out: zeros. -/
def asText : Option V → Bytes
  | some (.str s) => s
  | some (.int _ v) => le32 (v % 2 ^ 64).toNat
  | _ => [0, 0, 0, 0]

/-- The regular expression leaf with a pattern: only strings match, simple_predicate.cpp:199-202. -/
def regexWith (env : Env) (d : Doc) (k : Bytes) (pat : Option V) : Res Bool :=
  match d.get k with
  | .scalar (.str s) => env.rx s (asText pat)
  | _ => .ok false

/-- The leaves of `create_simple_predicate`, simple_predicate.cpp:58-236.  `r` is the document of the right side of a
join, if any.  With a right field, a regular expression reads the pattern from the left document if there is a right
one (205-212) and through a null pointer if there is none (213-220). -/
def checkLeaf (env : Env) (l : Doc) (r : Option Doc) : Leaf → Res Bool
  | .cmp c k (.param n) =>
    match env.params n with
    | none => .ok false
    | some v => (compareTo (l.get k) (some v)).bind fun o => .ok (c.ok o)
  | .cmp c k (.key k') =>
    match r with
    | some r => (compareTo (l.get k) (r.value k')).bind fun o => .ok (c.ok o)
    | none => (compareTo (l.get k) (l.value k')).bind fun o => .ok (c.ok o)
  | .regex k (.param n) =>
    match env.params n with
    | none => .ok false
    | some v => regexWith env l k (some v)
  | .regex k (.key k') =>
    match r with
    | some _ => regexWith env l k (l.value k')
    | none => match l.get k with
      | .scalar (.str _) => .ub
      | _ => .ok false
  | .allTrue => .ok true
  | .allFalse => .ok false

mutual
/-- `simple_predicate::check_impl`, simple_predicate.cpp:17-41: `and` and `or` stop early, `not` looks at the first
child only; without children `front()` is undefined. -/
def check {α : Type} (p : α → Res Bool) : Filter α → Res Bool
  | .leaf a => p a
  | .and fs => checkAnd p fs
  | .or fs => checkOr p fs
  | .not fs => checkNot p fs
def checkAnd {α : Type} (p : α → Res Bool) : List (Filter α) → Res Bool
  | [] => .ok true
  | f :: fs => (check p f).bind fun b => if b then checkAnd p fs else .ok false
def checkOr {α : Type} (p : α → Res Bool) : List (Filter α) → Res Bool
  | [] => .ok false
  | f :: fs => (check p f).bind fun b => if b then .ok true else checkOr p fs
def checkNot {α : Type} (p : α → Res Bool) : List (Filter α) → Res Bool
  | [] => .ub
  | f :: _ => (check p f).bind fun b => .ok (!b)
end

/-- `predicate::check` of one document, predicate.cpp:7-9. -/
def pred (env : Env) (f : Filter Leaf) (d : Doc) : Res Bool := check (checkLeaf env d none) f

/-- `predicate::check` of two documents, predicate.cpp:10-14. -/
def pred2 (env : Env) (f : Filter Leaf) (l r : Doc) : Res Bool := check (checkLeaf env l (some r)) f

/-! ### limits and scans -/

/-- `limit_t::check`, node_limit.cpp:20; -1 is `unlimit`. -/
def limOk (lim : Int) (count : Nat) : Bool := lim == -1 || decide ((count : Int) < lim)

/-- `++count` of an `int`. -/
def inc (n : Nat) : Res Nat := if n + 1 < 2 ^ 31 then .ok (n + 1) else .ub

/-- The loop of `full_scan` (full_scan.cpp:21-29) and `operator_match_t` (operator_match.cpp:22-31). -/
def scanLoop (lim : Int) (p : Doc → Res Bool) : List Doc → Nat → Res (List Doc)
  | [], _ => .ok []
  | d :: ds, n => (p d).bind fun b =>
    if b then (inc n).bind fun n' =>
      if limOk lim n' then (scanLoop lim p ds n').bind fun r => .ok (d :: r) else .ok [d]
    else scanLoop lim p ds n

/-- `full_scan`, full_scan.cpp:14-30; no output (`none`) if the limit admits nothing. -/
def fullScan (lim : Int) (p : Doc → Res Bool) (store : List Doc) : Res (Option (List Doc)) :=
  if limOk lim 0 then (scanLoop lim p store 0).bind fun r => .ok (some r) else .ok none

/-- The loop of `transfer_scan`, transfer_scan.cpp:17-23. -/
def transferLoop (lim : Int) : List Doc → Nat → Res (List Doc)
  | [], _ => .ok []
  | d :: ds, n => (inc n).bind fun n' =>
    if limOk lim n' then (transferLoop lim ds n').bind fun r => .ok (d :: r) else .ok [d]

/-- `transfer_scan`, transfer_scan.cpp:11-24. -/
def transferScan (lim : Int) (store : List Doc) : Res (Option (List Doc)) :=
  if limOk lim 0 then (transferLoop lim store 0).bind fun r => .ok (some r) else .ok none

/-- `operator_match_t`, operator_match.cpp:12-33. -/
def matchOp (lim : Int) (p : Doc → Res Bool) : Option (List Doc) → Res (Option (List Doc))
  | none => .ok none
  | some ds => fullScan lim p ds

/-! ### merges -/

/-- Whether a list has a document with an `_id`. -/
def hasId (ds : List Doc) (i : Nat) : Bool := ds.any fun d => d.id == i

/-- `operator_and_t`, operator_and.cpp:9-33. -/
def andOp (lim : Int) (l r : Option (List Doc)) : Res (Option (List Doc)) :=
  match l, r with
  | some ls, some rs => fullScan lim (fun d => .ok (hasId rs d.id)) ls
  | _, _ => .ok none

/-- The second loop of `operator_or_t`, operator_or.cpp:24-36; `out` is the output so far. -/
def orLoop (lim : Int) : List Doc → List Doc → Nat → Res (List Doc)
  | out, [], _ => .ok out
  | out, d :: ds, n =>
    if hasId out d.id then orLoop lim out ds n
    else (inc n).bind fun n' => if limOk lim n' then orLoop lim (out ++ [d]) ds n' else .ok (out ++ [d])

/-- The first loop of `operator_or_t`, operator_or.cpp:17-23, then the second. -/
def orFirst (lim : Int) (rs : List Doc) : List Doc → List Doc → Nat → Res (List Doc)
  | out, [], n => orLoop lim out rs n
  | out, d :: ds, n => (inc n).bind fun n' => if limOk lim n' then orFirst lim rs (out ++ [d]) ds n' else .ok (out ++ [d])

/-- `operator_or_t`, operator_or.cpp:9-38. -/
def orOp (lim : Int) (l r : Option (List Doc)) : Res (Option (List Doc)) :=
  if limOk lim 0 then match l, r with
    | some ls, some rs => (orFirst lim rs [] ls 0).bind fun o => .ok (some o)
    | _, _ => .ok none
  else .ok none

/-- `operator_not_t`, operator_not.cpp:9-32. -/
def notOp (lim : Int) (store : List Doc) : Option (List Doc) → Res (Option (List Doc))
  | none => .ok none
  | some ls => fullScan lim (fun d => .ok (!hasId ls d.id)) store

/-- A tree of merges over scans, each with its limit (`create_operator_merge`, operator_merge.cpp:18-39). -/
inductive Plan where
  | scan (lim : Int) (f : Filter Leaf)
  | and (lim : Int) (l r : Plan)
  | or (lim : Int) (l r : Plan)
  | not (lim : Int) (l : Plan)

/-- `operator_t::on_execute`, operator.cpp:12-32: children first, then the operator. -/
def Plan.run (env : Env) (store : List Doc) : Plan → Res (Option (List Doc))
  | .scan lim f => fullScan lim (pred env f) store
  | .and lim l r => (l.run env store).bind fun a => (r.run env store).bind fun b => andOp lim a b
  | .or lim l r => (l.run env store).bind fun a => (r.run env store).bind fun b => orOp lim a b
  | .not lim l => (l.run env store).bind fun a => notOp lim store a

end Verif.Query
