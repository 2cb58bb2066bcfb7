import Verif.Num.Float
import Verif.Base.Bytes
/-!
Model of `physical_value` (components/types/physical_value.cpp, .hpp), the keys of the B+ tree and of the indexes.

Simplifications: the bytes of a string are part of the value instead of a pointer to them; the types no constructor
makes (128-bit integers, lists, structs, ...) are left out.
-/
namespace Verif.PhysKey

open Verif.Num

/-- The integer types of `physical_type`, types.hpp:25-37. -/
inductive ITy where
  | u8 | i8 | u16 | i16 | u32 | i32 | u64 | i64
deriving DecidableEq, Repr

def ITy.signed : ITy → Bool
  | .i8 => true | .i16 => true | .i32 => true | .i64 => true
  | _ => false

def ITy.bits : ITy → Nat
  | .u8 => 8 | .i8 => 8 | .u16 => 16 | .i16 => 16 | .u32 => 32 | .i32 => 32 | .u64 => 64 | .i64 => 64

/-- A value: `type_` and `data_`, physical_value.hpp:98-101. -/
inductive Key where
  | na
  | bool (b : Bool)
  | int (t : ITy) (data : UInt64)
  | float (bits : UInt32)
  | double (bits : UInt64)
  | str (s : Bytes)
deriving DecidableEq, Repr

/-- `value<T>()`, physical_value.cpp:217-256: the low bytes of `data_` as the integer type. -/
def ITy.read (t : ITy) (data : UInt64) : Int :=
  let n := data.toNat % 2 ^ t.bits
  if t.signed && decide (2 ^ (t.bits - 1) ≤ n) then (n : Int) - 2 ^ t.bits else n

/-- `cmp_less` of two integers, physical_value.cpp:13-19. -/
def cmpLess (s1 : Bool) (a : Int) (s2 : Bool) (b : Int) : Bool :=
  if s1 = s2 then decide (a < b)
  else if s1 then decide (a < 0) || decide ((a.toNat : Int) < b)
  else decide (b ≥ 0) && decide (a < (b.toNat : Int))

/-- `<` of `std::string_view`: the bytes as unsigned numbers, then the length. -/
def bytesLt : Bytes → Bytes → Bool
  | [], [] => false
  | [], _ :: _ => true
  | _ :: _, [] => false
  | a :: s, b :: t => if a.toNat < b.toNat then true else if b.toNat < a.toNat then false else bytesLt s t

/-- `operator<`, physical_value.cpp:58-199. -/
def Key.lt : Key → Key → Bool
  | .na, _ => false
  | _, .na => true
  | .bool a, .bool b => !a && b
  | .bool _, _ => true
  | _, .bool _ => false
  | .str a, .str b => bytesLt a b
  | .str _, _ => false
  | _, .str _ => true
  | .int t a, .int u b => cmpLess t.signed (t.read a) u.signed (u.read b)
  | .int t a, .float b => FVal.lt (ofInt 24 (t.read a)) (decode32 b)
  | .int t a, .double b => FVal.lt (ofInt 53 (t.read a)) (decode64 b)
  | .float a, .int u b => FVal.lt (decode32 a) (ofInt 24 (u.read b))
  | .double a, .int u b => FVal.lt (decode64 a) (ofInt 53 (u.read b))
  | .float a, .float b => FVal.lt (decode32 a) (decode32 b)
  | .float a, .double b => FVal.lt (decode32 a) (decode64 b)
  | .double a, .float b => FVal.lt (decode64 a) (decode32 b)
  | .double a, .double b => FVal.lt (decode64 a) (decode64 b)

/-- `operator==`, physical_value.cpp:203-205. -/
def Key.eq (a b : Key) : Bool := !Key.lt a b && !Key.lt b a

/-- `numeric_limits::min`, physical_value.hpp:115. -/
def Key.min : Key := .bool false

/-- `numeric_limits::max`, physical_value.hpp:116. -/
def Key.max : Key := .na

/-- The constructor from an integer, physical_value.hpp:32-35: its bytes, the rest zero. -/
def Key.ofInt (t : ITy) (v : Int) : Key := .int t (UInt64.ofNat (v % 2 ^ t.bits).toNat)

end Verif.PhysKey
