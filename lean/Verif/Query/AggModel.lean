import Verif.Query.WriteModel
/-!
Model of aggregates and grouping (components/physical_plan/collection/operators/aggregate/*.cpp, operator_group.cpp,
components/document/value.cpp).

Simplifications: as in `Query/Model.lean`; rounded addition and division of `float` and `double` are parameters; the
uninitialised bytes of the tape are zero; `noexcept` functions that throw end the process: `ub`.
-/
namespace Verif.Query

open Verif.DocVal Verif.Num Verif.PhysKey Verif.LogVal

/-- The floating point operations of the machine: the bits of the rounded results. -/
structure Fpu where
  add32 : FVal → FVal → UInt32
  add64 : FVal → FVal → UInt64
  div64 : FVal → FVal → UInt64

/-- A `noexcept` getter, value.hpp:36-41, value.cpp:75-86: an error ends the process. -/
def noexc {α : Type} : Res α → Res α
  | .throws => .ub
  | r => r

/-- A new value on a tape, `value_t(tape, value)`, value.hpp:88-93, and the values of `set`: written and read back. -/
def put (v : V) : Res V := read (build 0 ⟨[], []⟩ v) 0

/-- The getter of an operand, or `T()` for an absent one: `op`, value.cpp:181-196. -/
def operand {α : Type} (zero : α) (get : V → Res α) : Option V → Res α
  | none => .ok zero
  | some v => noexc (get v)

/-- `op<std::plus<>>`, value.cpp:181-196. -/
def plusOp {α : Type} (zero : α) (get : V → Res α) (add : α → α → Res V) (a b : Option V) : Res (Option V) :=
  (operand zero get a).bind fun x => (operand zero get b).bind fun y => (add x y).bind fun v => (put v).bind fun r => .ok (some r)

/-- Addition of `int64_t`: overflow is undefined. -/
def addI64 (x y : Int) : Res V := if ITy.i64.fits (x + y) then .ok (.int .i64 (x + y)) else .ub

/-- Addition of `uint64_t`: modulo 2^64. -/
def addU64 (x y : Int) : Res V := .ok (.int .u64 ((x + y) % 2 ^ 64))

/-- Addition of 128-bit integers: overflow is undefined. -/
def addBig (x y : Int) : Res V := if -2 ^ 127 ≤ x + y ∧ x + y < 2 ^ 127 then .ok (.big (x + y)) else .ub

/-- Addition of `bool`: an `int`. -/
def addBool (x y : Bool) : Res V := .ok (.int .i32 ((if x then 1 else 0) + (if y then 1 else 0)))

/-- `sum`, value.cpp:198-230: the type is that of the first operand present; an absent string is read through a null
tape. -/
def sumV (fpu : Fpu) (a b : Option V) : Res (Option V) :=
  match (match a with | some v => some v | none => b) with
  | none => .ok a
  | some (.bool _) => plusOp false V.getBool addBool a b
  | some (.int t _) => if t.signed then plusOp 0 (V.getInt .i64) addI64 a b else plusOp 0 (V.getInt .u64) addU64 a b
  | some (.big _) => plusOp 0 V.getBig addBig a b
  | some (.float _) => plusOp (.fin 0) V.getFloat (fun x y => .ok (.float (fpu.add32 x y))) a b
  | some (.double _) => plusOp (.fin 0) V.getDouble (fun x y => .ok (.double (fpu.add64 x y))) a b
  | some (.str _) =>
    match a, b with
    | some _, some _ => (put (.str (asText a ++ asText b))).bind fun r => .ok (some r)
    | _, _ => .ub
  | some .na => .ok a
  | some (.other _) => .ok a

/-- The sum of a field over documents, operator_sum.cpp:18-21, operator_avg.cpp:20-23. -/
def sumDocs (fpu : Fpu) (k : Bytes) : Option V → List Doc → Res (Option V)
  | acc, [] => .ok acc
  | acc, d :: ds => (sumV fpu acc (d.value k)).bind fun acc => sumDocs fpu k acc ds

/-- `set(json_pointer, value_t)`, document.hpp:276-309: integers are widened to 64 bits; the type of an absent value is
read through a null tape. -/
def widen : V → V
  | .int t v => .int (if t.signed then .i64 else .u64) v
  | .other _ => .na
  | v => v

/-- The value `set(json_pointer, value_t)` writes. -/
def setValue : Option V → Res V
  | none => .ub
  | some v => put (widen v)

/-- The aggregates. -/
inductive Agg where
  | count
  | sum (key : Bytes)
  | avg (key : Bytes)
  | max (key : Bytes)
  | min (key : Bytes)
deriving DecidableEq, Repr

/-- `doc1->compare(key, doc2, key) == less`, operator_max.cpp:20-23, operator_min.cpp:20-23. -/
def lessBy (k : Bytes) (a b : Doc) : Res Bool := (compareCell (a.get k) (b.get k)).bind fun o => .ok (o == .lt)

/-- `std::max_element`: the first of the greatest. -/
def maxElement (k : Bytes) : Doc → List Doc → Res Doc
  | best, [] => .ok best
  | best, d :: ds => (lessBy k best d).bind fun b => maxElement k (if b then d else best) ds

/-- `std::min_element`: the first of the least. -/
def minElement (k : Bytes) : Doc → List Doc → Res Doc
  | best, [] => .ok best
  | best, d :: ds => (lessBy k d best).bind fun b => minElement k (if b then d else best) ds

/-- What `set(json_pointer, other, key)` copies into an empty document, document.cpp:228-263. -/
def copied (c : Cell) : Cell :=
  match c with
  | .scalar (.other _) => .missing
  | .scalar v => .scalar v
  | _ => .missing

/-- The result field of an aggregate over the documents of its input: `aggregate_impl` of operator_count.cpp:12-21,
operator_sum.cpp:12-27, operator_avg.cpp:12-30, operator_max.cpp:12-31, operator_min.cpp:12-31. -/
def Agg.run (fpu : Fpu) (docs : List Doc) : Agg → Res Cell
  | .count => (put (.int .u64 (docs.length % 2 ^ 64))).bind fun v => .ok (.scalar v)
  | .sum k => (sumDocs fpu k none docs).bind fun s => (setValue s).bind fun v => .ok (.scalar v)
  | .avg k =>
    if docs = [] then .ok (.scalar (.int .i32 0))
    else (sumDocs fpu k none docs).bind fun s =>
      match s with
      | none => .ub
      | some v => (noexc v.getDouble).bind fun x => (put (.double (fpu.div64 x (ofInt 53 docs.length)))).bind fun r => .ok (.scalar r)
  | .max k =>
    match docs with
    | [] => .ok (.scalar (.int .i32 0))
    | d :: ds => (maxElement k d ds).bind fun m => .ok (copied (m.get k))
  | .min k =>
    match docs with
    | [] => .ok (.scalar (.int .i32 0))
    | d :: ds => (minElement k d ds).bind fun m => .ok (copied (m.get k))

/-! ### grouping -/

/-- `is_equals_value`, document.cpp:531-568: the same type, floating point numbers by `types::is_equals`. -/
def eqV : V → V → Bool
  | .na, .na => true
  | .bool a, .bool b => a == b
  | .int t a, .int u b => t == u && a == b
  | .big a, .big b => a == b
  | .float a, .float b => isEquals 24 (decode32 a) (decode32 b)
  | .double a, .double b => isEquals 53 (decode64 a) (decode64 b)
  | .str a, .str b => a == b
  | _, _ => false

/-- Equality of two nodes of a document of scalars, json_trie_node.cpp:133-148. -/
def eqCell : Cell → Cell → Bool
  | .scalar a, .scalar b => eqV a b
  | _, _ => false

/-- `json_object::equals`, container/json_object.cpp:106-118. -/
def sameFields (a b : List (Bytes × Cell)) : Bool := a.length == b.length && a.all fun p => eqCell p.2 (look b p.1)

/-- The document of the keys of a document, operator_group.cpp:37-50: `none` if a key field has no value. -/
def keyDoc (d : Doc) : List (Bytes × Bytes) → List (Bytes × Cell) → Res (Option (List (Bytes × Cell)))
  | [], fs => .ok (some fs)
  | (name, key) :: ks, fs =>
    match d.value key with
    | none => .ok none
    | some v => (setValue (some v)).bind fun v => keyDoc d ks (setField name (.scalar v) fs)

/-- A group: its output document and its documents. -/
structure Group where
  row : List (Bytes × Cell)
  members : List Doc
deriving DecidableEq, Repr

/-- The search for the group of a document, operator_group.cpp:51-62. -/
def place (key : List (Bytes × Cell)) (d : Doc) : List Group → List Group
  | [] => [⟨key, [d]⟩]
  | g :: gs => if sameFields key g.row then ⟨g.row, g.members ++ [d]⟩ :: gs else g :: place key d gs

/-- `create_list_documents`, operator_group.cpp:36-64. -/
def collect (keys : List (Bytes × Bytes)) : List Group → List Doc → Res (List Group)
  | gs, [] => .ok gs
  | gs, d :: ds => (keyDoc d keys []).bind fun
    | none => collect keys gs ds
    | some key => collect keys (place key d gs) ds

/-- `set_value`, operator_aggregate.cpp:15-17: `doc->set(key, result, key_impl)`. -/
def setAgg (name : Bytes) (c : Cell) (row : List (Bytes × Cell)) : List (Bytes × Cell) :=
  match copied c with
  | .scalar v => setField name (.scalar v) row
  | _ => row

/-- One aggregate over all groups, operator_group.cpp:69-78. -/
def calcOne (fpu : Fpu) (name : Bytes) (a : Agg) : List Group → Res (List Group)
  | [] => .ok []
  | g :: gs => (a.run fpu g.members).bind fun c => (calcOne fpu name a gs).bind fun gs => .ok (⟨setAgg name c g.row, g.members⟩ :: gs)

/-- `calc_aggregate_values`, operator_group.cpp:66-80. -/
def calcAll (fpu : Fpu) : List (Bytes × Agg) → List Group → Res (List Group)
  | [], gs => .ok gs
  | (name, a) :: as, gs => (calcOne fpu name a gs).bind fun gs => calcAll fpu as gs

/-- `operator_group_t::on_execute_impl`, operator_group.cpp:28-34. -/
def groupOp (fpu : Fpu) (keys : List (Bytes × Bytes)) (aggs : List (Bytes × Agg)) (docs : List Doc) : Res (List Group) :=
  (collect keys [] docs).bind fun gs => calcAll fpu aggs gs

end Verif.Query
