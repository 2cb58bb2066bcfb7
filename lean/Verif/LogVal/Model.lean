import Verif.PhysKey.Spec
import Verif.Base.Res
/-!
Model of `logical_value_t` (components/types/logical_value.cpp, .hpp) and of `promote_type` (components/types/types.hpp):
comparison and integer arithmetic.

Simplifications: assertions are compiled out; lists, structs and pointers, comparisons of time stamps of different
units, and arithmetic on other than integers are left out; a floating point value is the number it stands for
(`Verif.Num.FVal`).
-/
namespace Verif.LogVal

open Verif.Num Verif.PhysKey

/-- A value with its type: the alternatives of `value_`, logical_value.hpp:80-101.  `huge`, `uhuge`: 128 bits. -/
inductive LV where
  | na
  | bool (b : Bool)
  | int (t : ITy) (v : Int)
  | huge (v : Int)
  | uhuge (v : Int)
  | float (f : FVal)
  | double (f : FVal)
  | ts (unit : Nat) (v : Int)
  | str (s : Bytes)
deriving DecidableEq, Repr

/-- `logical_type` of the integer types, types.hpp:80-101. -/
def tcode : ITy → Nat
  | .i8 => 11 | .i16 => 12 | .i32 => 13 | .i64 => 14 | .u8 => 27 | .u16 => 28 | .u32 => 29 | .u64 => 30

/-- The number of the type of a value, types.hpp:75-124. -/
def LV.code : LV → Nat
  | .na => 0
  | .bool _ => 10
  | .int t _ => tcode t
  | .huge _ => 15
  | .uhuge _ => 31
  | .float _ => 23
  | .double _ => 24
  | .ts u _ => 18 + u
  | .str _ => 35

/-- `is_numeric`, types.hpp:165-184. -/
def isNumeric (c : Nat) : Bool := [10, 27, 11, 28, 12, 29, 13, 30, 14, 31, 15, 23, 24].contains c

/-- `is_signed`, types.hpp:186-199. -/
def isSigned (c : Nat) : Bool := [11, 12, 13, 14, 15, 23, 24].contains c

/-- `is_unsigned`, types.hpp:201-213. -/
def isUnsigned (c : Nat) : Bool := [10, 27, 28, 29, 30, 31].contains c

/-- `promote_type` of two numeric types, types.hpp:282-355.  The difference of two `uint8_t` is converted back to
`uint8_t`. -/
def promote (a b : Nat) : Nat :=
  if a = b then a
  else if isSigned a = isSigned b ∨ isUnsigned a = isUnsigned b then max a b
  else if isSigned a then max a ((b + 256 - 16) % 256)
  else max ((a + 256 - 16) % 256) b

/-- Conversion of an integer to an integer type, modulo its size (gcc). -/
def wrap (t : ITy) (v : Int) : Int :=
  let n := v % 2 ^ t.bits
  if t.signed && decide ((2 : Int) ^ (t.bits - 1) ≤ n) then n - 2 ^ t.bits else n

/-- Conversion of an integer of up to 128 bits to `float`: the largest ones overflow to infinity. -/
def toFloat (v : Int) : FVal :=
  if 2 ^ 128 ≤ rnd 24 v then .pinf else if rnd 24 v ≤ -2 ^ 128 then .ninf else ofInt 24 v

/-- The integer in a value. -/
def LV.asInt : LV → Option Int
  | .bool b => some (if b then 1 else 0)
  | .int _ v => some v
  | .huge v => some v
  | .uhuge v => some v
  | _ => none

/-- The integer type with a given number. -/
def ofCode (c : Nat) : Option ITy :=
  if c = 11 then some .i8 else if c = 12 then some .i16 else if c = 13 then some .i32 else if c = 14 then some .i64
  else if c = 27 then some .u8 else if c = 28 then some .u16 else if c = 29 then some .u32 else if c = 30 then some .u64 else none

/-- `cast_as` to the promoted type, logical_value.cpp:335-424; a type that is not numeric gives the null value (its last
line).  The conversions a promotion never asks for (from floating point to integers, from `double` to `float`) are
left out: null. -/
def LV.cast (c : Nat) (x : LV) : LV :=
  if x.code = c then x
  else match x.asInt with
    | some v =>
      if c = 10 then .bool (v != 0)
      else if c = 23 then .float (toFloat v)
      else if c = 24 then .double (ofInt 53 v)
      else if c = 15 then .huge v
      else if c = 31 then .uhuge (v % 2 ^ 128)
      else match ofCode c with
        | some t => .int t (wrap t v)
        | none => .na
    | none => match x with
      | .float f => if c = 24 then .double f else .na
      | _ => .na

/-- `is_equals`, operations_helper.hpp:8-11: the rounded difference is less than epsilon, `2^(1-p)`.  A difference with
an infinity or NaN is never. -/
def isEquals (p : Nat) : FVal → FVal → Bool
  | .fin a, .fin b => decide (rndNat p (a - b).natAbs * 2 ^ (p - 1) < 2 ^ 1074)
  | _, _ => false

/-- `operator==` on one type, logical_value.cpp:451-490; 128-bit integers, time stamps and null are not handled. -/
def eqSame : LV → LV → Bool
  | .bool a, .bool b => a == b
  | .int _ a, .int _ b => decide (a = b)
  | .float a, .float b => isEquals 24 a b
  | .double a, .double b => isEquals 53 a b
  | .str a, .str b => decide (a = b)
  | _, _ => false

/-- `operator<` on one type, logical_value.cpp:506-535. -/
def ltSame : LV → LV → Bool
  | .bool a, .bool b => !a && b
  | .int _ a, .int _ b => decide (a < b)
  | .float a, .float b => FVal.lt a b
  | .double a, .double b => FVal.lt a b
  | .str a, .str b => bytesLt a b
  | _, _ => false

/-- `operator==`, logical_value.cpp:432-491. -/
def LV.eq (a b : LV) : Bool :=
  if a.code = b.code then eqSame a b
  else if isNumeric a.code && isNumeric b.code then eqSame (a.cast (promote a.code b.code)) (b.cast (promote a.code b.code))
  else false

/-- `operator<`, logical_value.cpp:495-536. -/
def LV.lt (a b : LV) : Bool :=
  if a.code = b.code then ltSame a b
  else if isNumeric a.code && isNumeric b.code then ltSame (a.cast (promote a.code b.code)) (b.cast (promote a.code b.code))
  else false

/-- `compare`, logical_value.cpp:544-552: `.eq`, `.lt` or `.gt`. -/
def LV.compare (a b : LV) : Ordering := if a.eq b then .eq else if a.lt b then .lt else .gt

/-! ### arithmetic -/

inductive Arith where
  | sum | subtract | mult | divide | modulus
deriving DecidableEq, Repr

/-- The type of `a + b` for two values of a type: what is smaller than `int` is converted to `int`. -/
def arithTy : ITy → ITy
  | .u8 => .i32 | .i8 => .i32 | .u16 => .i32 | .i16 => .i32
  | t => t

/-- `std::plus`, `minus`, `multiplies`, `divides`, `modulus` on a type of at least the size of `int`. -/
def arith (o : Arith) (t : ITy) (a b : Int) : Res Int :=
  let r (v : Int) : Res Int := if t.signed then (if t.fits v then .ok v else .ub) else .ok (wrap t v)
  match o with
  | .sum => r (a + b)
  | .subtract => r (a - b)
  | .mult => r (a * b)
  | .divide => if b = 0 then .ub else r (a.tdiv b)
  | .modulus => if b = 0 then .ub else (r (a.tdiv b)).bind fun _ => .ok (a.tmod b)

/-- `sum`, `subtract`, `mult`, `divide`, `modulus` with `op`, logical_value.cpp:686-930, on integers and null: a null
operand counts as `T()`; operands of different types throw `bad_variant_access`. -/
def LV.arith (o : Arith) : LV → LV → Res LV
  | .na, .na => .ok .na
  | .na, .int t b => (LogVal.arith o (arithTy t) 0 b).bind fun v => .ok (.int (arithTy t) v)
  | .int t a, .na => (LogVal.arith o (arithTy t) a 0).bind fun v => .ok (.int (arithTy t) v)
  | .int t a, .int u b => if t = u then (LogVal.arith o (arithTy t) a b).bind fun v => .ok (.int (arithTy t) v) else .throws
  | _, _ => .throws

end Verif.LogVal
