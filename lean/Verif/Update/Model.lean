import Verif.Json.Model
import Verif.Query.AggModel
/-!
Model of updates of documents (components/expressions/update_expression.cpp, components/document/value.cpp:178-655,
`document_t::update`, components/document/document.cpp:808-870,
components/physical_plan/collection/operators/operator_update.cpp).

Simplifications: as in `Json/Model.lean` and `Query/AggModel.lean`; the floating point operations, `std::pow`, `std::sqrt`,
`std::cbrt` and `boost::math::factorial` are parameters; keys of expressions are texts; the indexes, whose entries are
taken out before and put back after each document, are the subject of `Query/IndexModel.lean`.
-/
namespace Verif.Update

open Verif.DocVal Verif.Num Verif.PhysKey Verif.LogVal Verif.Json Verif.Query

/-! ### arithmetic on values, value.cpp -/

/-- The operations of two operands, `update_expr_type`. -/
inductive Bin where
  | add | sub | mult | div | mod | exp | and | or | xor | shl | shr
deriving DecidableEq, Repr

/-- The operations of one operand. -/
inductive Un where
  | sqrt | cbrt | fact | abs | not
deriving DecidableEq, Repr

/-- The operations of the machine and its library on floating point numbers, and `std::pow`, `std::sqrt`, `std::cbrt`,
`boost::math::factorial` on a value. -/
structure Math where
  bin32 : Bin → FVal → FVal → UInt32
  bin64 : Bin → FVal → FVal → UInt64
  pow : V → V → Res V
  un : Un → V → Res V

/-- Two's complement: bitwise operations on integers of `n` bits. -/
def bits (n : Nat) (f : Nat → Nat → Nat) (x y : Int) : Int :=
  let r := f (x % 2 ^ n).toNat (y % 2 ^ n).toNat
  if 2 ^ (n - 1) ≤ r then (r : Int) - 2 ^ n else r

/-- An operation on a signed type of `n` bits; what does not fit, division by zero, shifts by a wrong amount and (C++17)
shifts to the left of negative numbers are undefined; shifts to the left keep the low bits.  `exp` is `pow`. -/
def signedOp (n : Nat) (o : Bin) (x y : Int) : Res Int :=
  let r (v : Int) : Res Int := if -2 ^ (n - 1) ≤ v ∧ v < 2 ^ (n - 1) then .ok v else .ub
  match o with
  | .add => r (x + y)
  | .sub => r (x - y)
  | .mult => r (x * y)
  | .div => if y = 0 then .ub else r (x.tdiv y)
  | .mod => if y = 0 then .ub else (r (x.tdiv y)).bind fun _ => .ok (x.tmod y)
  | .and => .ok (bits n Nat.land x y)
  | .or => .ok (bits n Nat.lor x y)
  | .xor => .ok (bits n Nat.xor x y)
  | .shl =>
    if y < 0 ∨ (n : Int) ≤ y ∨ x < 0 ∨ 2 ^ n ≤ x * 2 ^ y.toNat then .ub
    else .ok (if 2 ^ (n - 1) ≤ x * 2 ^ y.toNat then x * 2 ^ y.toNat - 2 ^ n else x * 2 ^ y.toNat)
  | .shr => if y < 0 ∨ (n : Int) ≤ y then .ub else .ok (x / 2 ^ y.toNat)
  | .exp => .ub

/-- An operation on `uint64_t`: modulo 2^64. -/
def unsignedOp (o : Bin) (x y : Int) : Res Int :=
  match o with
  | .add => .ok ((x + y) % 2 ^ 64)
  | .sub => .ok ((x - y) % 2 ^ 64)
  | .mult => .ok (x * y % 2 ^ 64)
  | .div => if y = 0 then .ub else .ok (x / y)
  | .mod => if y = 0 then .ub else .ok (x % y)
  | .and => .ok (Nat.land x.toNat y.toNat)
  | .or => .ok (Nat.lor x.toNat y.toNat)
  | .xor => .ok (Nat.xor x.toNat y.toNat)
  | .shl => if 64 ≤ y then .ub else .ok (x * 2 ^ y.toNat % 2 ^ 64)
  | .shr => if 64 ≤ y then .ub else .ok (x / 2 ^ y.toNat)
  | .exp => .ub

/-- `bool` as `int`. -/
def b2i (b : Bool) : Int := if b then 1 else 0

/-- `op` of two operands, value.cpp:184-195, through `noexcept` getters; the result is put on a tape. -/
def op2 {α : Type} (zero : α) (get : V → Res α) (f : α → α → Res V) (a b : Option V) : Res (Option V) :=
  (operand zero get a).bind fun x => (operand zero get b).bind fun y => (f x y).bind fun v => (put v).bind fun r => .ok (some r)

/-- Whether the operations are defined on floating point numbers: the others return the first operand. -/
def Bin.onFloat : Bin → Bool
  | .add => true | .sub => true | .mult => true | .div => true | .exp => true | _ => false

/-- `pow` or an operation. -/
def orPow (m : Math) (o : Bin) (wrap : Int → V) (f : Int → Int → Res Int) (x y : Int) : Res V :=
  if o = .exp then m.pow (wrap x) (wrap y) else (f x y).bind fun r => .ok (wrap r)

/-- `pow<int128_t>` is exclusive or, operations_helper.hpp:51-61. -/
def bigOp (o : Bin) (x y : Int) : Res V := (signedOp 128 (if o = .exp then .xor else o) x y).bind fun r => .ok (.big r)

/-- `sum`, `subtract`, `mult`, `divide`, `modulus`, `exponent`, `bit_and`, `bit_or`, `bit_xor`, `bit_shift_l`,
`bit_shift_r`, value.cpp:197-380, 494-573, 601-655: by the type of the first operand that is there. -/
def binary (m : Math) (o : Bin) (a b : Option V) : Res (Option V) :=
  match (match a with | some v => some v | none => b) with
  | none => .ok a
  | some (.bool _) => op2 false V.getBool (fun x y =>
      if o = .exp then m.pow (.bool x) (.bool y) else (signedOp 32 o (b2i x) (b2i y)).bind fun r => .ok (.int .i32 r)) a b
  | some (.int t _) =>
    if t.signed then op2 0 (V.getInt .i64) (orPow m o (.int .i64) (signedOp 64 o)) a b
    else op2 0 (V.getInt .u64) (orPow m o (.int .u64) (unsignedOp o)) a b
  | some (.big _) => op2 0 V.getBig (bigOp o) a b
  | some (.float _) => if o.onFloat then op2 (.fin 0) V.getFloat (fun x y => .ok (.float (m.bin32 o x y))) a b else .ok a
  | some (.double _) => if o.onFloat then op2 (.fin 0) V.getDouble (fun x y => .ok (.double (m.bin64 o x y))) a b else .ok a
  | some (.str _) =>
    if o = .add then
      match a, b with
      | some _, some _ => (put (.str (asText a ++ asText b))).bind fun r => .ok (some r)
      | _, _ => .ub
    else .ok a
  | some .na => .ok a
  | some (.other _) => .ok a

/-- `sqr_root`, `cube_root`, `factorial`, `absolute`, `bit_not`, value.cpp:382-492, 575-599: integers are widened to 64
bits first. -/
def unary (m : Math) (o : Un) : Option V → Res (Option V)
  | none => .ok none
  | some .na => .ok (some .na)
  | some (.other c) => .ok (some (.other c))
  | some (.str s) => .ok (some (.str s))
  | some (.bool b) =>
    match o with
    | .not => (put (.int .i32 (-1 - b2i b))).bind fun r => .ok (some r)
    | .abs => (put (.int .i32 (b2i b))).bind fun r => .ok (some r)
    | _ => (m.un o (.bool b)).bind fun v => (put v).bind fun r => .ok (some r)
  | some (.int t v) =>
    if t.signed then (noexc ((V.int t v).getInt .i64)).bind fun x =>
      match o with
      | .not => (put (.int .i64 (-1 - x))).bind fun r => .ok (some r)
      | .abs => if x = -2 ^ 63 then .ub else (put (.int .i64 |x|)).bind fun r => .ok (some r)
      | _ => (m.un o (.int .i64 x)).bind fun w => (put w).bind fun r => .ok (some r)
    else (noexc ((V.int t v).getInt .u64)).bind fun x =>
      match o with
      | .not => (put (.int .u64 (2 ^ 64 - 1 - x))).bind fun r => .ok (some r)
      | .abs => .ok (some (.int t v))
      | _ => (m.un o (.int .u64 x)).bind fun w => (put w).bind fun r => .ok (some r)
  | some (.big v) =>
    match o with
    | .not => (put (.big (-1 - v))).bind fun r => .ok (some r)
    | .abs => if v = -2 ^ 127 then .ub else (put (.big |v|)).bind fun r => .ok (some r)
    | _ => .ok (some (.big v))
  | some (.float b) => if o = .not then .ok (some (.float b)) else (m.un o (.float b)).bind fun w => (put w).bind fun r => .ok (some r)
  | some (.double b) => if o = .not then .ok (some (.double b)) else (m.un o (.double b)).bind fun w => (put w).bind fun r => .ok (some r)

/-! ### assigning -/

/-- `get_as<T>`, document.hpp:155-165: the value read as a type, or `T()` if it is not there or of another type. -/
def getAs {α : Type} (zero : α) (get : V → Res α) (n : Node) (ptr : Bytes) : Res α :=
  (findNode n ptr).bind fun
    | .node (.leaf v) => match get v with
      | .throws => .ok zero
      | r => r
    | _ => .ok zero

/-- `x != y` of two floating point numbers. -/
def fneq (x y : FVal) : Bool := x == .nan || y == .nan || x != y

/-- `set(json_pointer, new_value)` with its error ignored, then `result = true`. -/
def assignV (n : Node) (ptr : Bytes) (v : V) : Res (Node × Bool) :=
  (put v).bind fun w => (setAt n ptr (.leaf w)).bind fun r => .ok (r.1, true)

/-- The comparison with the old value, then the assignment. -/
def assignIf {α : Type} (zero : α) (get : V → Res α) (neq : α → α → Bool) (back : α → V) (n : Node) (ptr : Bytes) (v : V) : Res (Node × Bool) :=
  (noexc (get v)).bind fun x => (getAs zero get n ptr).bind fun old =>
    if neq old x then assignV n ptr (back x) else .ok (n, false)

/-- `document_t::update(json_pointer, value)`, document.cpp:808-870.  A float is assigned as a double: `widenF` gives its
bits. -/
def updateAt (widenF : UInt32 → UInt64) (n : Node) (ptr : Bytes) : Option V → Res (Node × Bool)
  | none => .ub
  | some (.bool b) => assignIf false V.getBool (fun x y => x != y) .bool n ptr (.bool b)
  | some (.int t v) =>
    if t.signed then assignIf 0 (V.getInt .i64) (fun x y => x != y) (.int .i64) n ptr (.int t v)
    else assignIf 0 (V.getInt .u64) (fun x y => x != y) (.int .u64) n ptr (.int t v)
  | some (.big v) => assignIf 0 V.getBig (fun x y => x != y) .big n ptr (.big v)
  | some (.float b) => assignIf (.fin 0) V.getDouble fneq (fun _ => .double (widenF b)) n ptr (.float b)
  | some (.double b) => assignIf (.fin 0) V.getDouble fneq (fun _ => .double b) n ptr (.double b)
  | some (.str s) => assignIf [] V.getStr (fun x y => x != y) .str n ptr (.str s)
  | some .na => .ok (n, false)
  | some (.other _) => .ok (n, false)

/-! ### expressions -/

/-- `side_t` (`undefined`, `to`, `from`), update_expression.hpp. -/
inductive Side where
  | undefined | own | other
deriving DecidableEq, Repr

/-- `update_expr_t` with its kinds. -/
inductive Expr where
  | set (key : Bytes) (left : Option Expr)
  | field (key : Bytes) (side : Side)
  | param (id : Nat)
  | bin (o : Bin) (left right : Option Expr)
  | un (o : Un) (left right : Option Expr)

/-- What an expression is run with. -/
structure Ctx where
  math : Math
  widenF : UInt32 → UInt64
  params : Nat → Option V

/-- The state after an expression: itself (the deduced side is kept), the document, its result (`modified`) and its
output.  The output of a `set` is an absent value. -/
structure Out where
  expr : Expr
  doc : Node
  modified : Bool
  value : Option V

/-- `update_expr_get_value_t::execute_impl`, update_expression.cpp:243-262.  Without a second document `from` is null. -/
def runField (key : Bytes) (side : Side) (n : Node) (src : Option Node) : Res Out :=
  match side with
  | .own => (getValue n key).bind fun v => .ok ⟨.field key .own, n, false, v⟩
  | .other => match src with
    | none => .ub
    | some s => (getValue s key).bind fun v => .ok ⟨.field key .other, n, false, v⟩
  | .undefined => (exists? n key).bind fun b =>
    if b then (getValue n key).bind fun v => .ok ⟨.field key .own, n, false, v⟩
    else match src with
      | none => .ub
      | some s => (exists? s key).bind fun c =>
        if c then (getValue s key).bind fun v => .ok ⟨.field key .other, n, false, v⟩
        else .ok ⟨.field key .undefined, n, false, some .na⟩

mutual
/-- `update_expr_t::execute`, update_expression.cpp:32-43, with the `execute_impl` of each kind (178-186, 243-262,
330-336, 374-431).  An operation without the operands it reads dereferences null. -/
def exec (c : Ctx) (n : Node) (src : Option Node) : Expr → Res Out
  | .param id => match c.params id with
    | some v => .ok ⟨.param id, n, false, some v⟩
    | none => .throws
  | .field key side => runField key side n src
  | .set key l => (execOpt c n src l).bind fun o => match o with
    | (l', n1, none) => .ok ⟨.set key l', n1, false, none⟩
    | (l', n1, some v) => (updateAt c.widenF n1 key v).bind fun r => .ok ⟨.set key l', r.1, r.2, none⟩
  | .bin o l r => (execOpt c n src l).bind fun a => (execOpt c a.2.1 src r).bind fun b => match a.2.2, b.2.2 with
    | some x, some y => (binary c.math o x y).bind fun v => .ok ⟨.bin o a.1 b.1, b.2.1, false, v⟩
    | _, _ => .ub
  | .un o l r => (execOpt c n src l).bind fun a => (execOpt c a.2.1 src r).bind fun b => match a.2.2 with
    | some x => (unary c.math o x).bind fun v => .ok ⟨.un o a.1 b.1, b.2.1, false, v⟩
    | none => .ub
/-- An operand, if there: the operand after, the document, its output. -/
def execOpt (c : Ctx) (n : Node) (src : Option Node) : Option Expr → Res (Option Expr × Node × Option (Option V))
  | none => .ok (none, n, none)
  | some e => (exec c n src e).bind fun o => .ok (some o.expr, o.doc, some o.value)
end

/-- The loop over the assignments of an update, operator_update.cpp:50-54, 75-77. -/
def runAll (c : Ctx) (src : Option Node) : List Expr → Node → Res (List Expr × Node × Bool)
  | [], n => .ok ([], n, false)
  | e :: es, n => (exec c n src e).bind fun o => (runAll c src es o.doc).bind fun r => .ok (o.expr :: r.1, r.2.1, o.modified || r.2.2)

/-- The loop over the documents, operator_update.cpp:70-85: the documents after it, and which were modified. -/
def runDocs (c : Ctx) : List Expr → List Node → Res (List (Node × Bool))
  | _, [] => .ok []
  | es, d :: ds => (runAll c none es d).bind fun r => (runDocs c r.1 ds).bind fun rs => .ok ((r.2.1, r.2.2) :: rs)

end Verif.Update
