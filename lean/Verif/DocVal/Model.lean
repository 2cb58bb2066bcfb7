import Verif.LogVal.Model
/-!
Model of the scalar values of documents: the tape they are stored on (components/document/impl/tape_builder.hpp,
tape_writer.cpp, tape_ref.hpp), reading them as a C++ type (components/document/impl/element.cpp), comparing them
(components/document/document.cpp) and adding them (components/document/value.cpp).

Simplifications: assertions are compiled out; a number converted to `float` or `double` is the number it stands for.
-/
namespace Verif.DocVal

open Verif.Num Verif.PhysKey Verif.LogVal

/-- A scalar of a document, by its physical type; `big` is `INT128`, `other` a type number no getter knows. -/
inductive V where
  | na
  | bool (b : Bool)
  | int (t : ITy) (v : Int)
  | big (v : Int)
  | float (bits : UInt32)
  | double (bits : UInt64)
  | str (s : Bytes)
  | other (code : Nat)
deriving DecidableEq, Repr

/-! ### the tape -/

/-- `physical_type` of the integers, types.hpp:25-37. -/
def icode : ITy → Nat
  | .u8 => 2 | .i8 => 3 | .u16 => 4 | .i16 => 5 | .u32 => 6 | .i32 => 7 | .u64 => 8 | .i64 => 9

/-- The integer type with a given number. -/
def ofICode (c : Nat) : Option ITy :=
  if c = 2 then some .u8 else if c = 3 then some .i8 else if c = 4 then some .u16 else if c = 5 then some .i16
  else if c = 6 then some .u32 else if c = 7 then some .i32 else if c = 8 then some .u64 else if c = 9 then some .i64 else none

/-- `base_document`, impl/document.hpp: the 64-bit words and the bytes of the strings. -/
structure Tape where
  words : List Nat
  chars : Bytes
deriving DecidableEq, Repr

/-- `tape_builder::append`, tape_builder.cpp:25-27: the value or-ed with its type in the top byte. -/
def word (val code : Nat) : Nat := (val ||| (code * 2 ^ 56)) % 2 ^ 64

/-- Four bytes of a number, little endian. -/
def le32 (n : Nat) : Bytes := [UInt8.ofNat (n % 256), UInt8.ofNat (n / 256 % 256), UInt8.ofNat (n / 65536 % 256), UInt8.ofNat (n / 16777216 % 256)]

/-- `tape_writer::append_string`, tape_writer.cpp:22-32: the length, as 32 bits, that many bytes, and a zero. -/
def strBytes (s : Bytes) : Bytes := le32 (s.length % 2 ^ 32) ++ s.take (s.length % 2 ^ 32) ++ [0]

/-- `tape_builder::build`, tape_builder.hpp:41-92.  `junk` are the bytes of the uninitialised `tape_data` above those
copied into it. -/
def build (junk : Nat) (d : Tape) : V → Tape
  | .na => { d with words := d.words ++ [word 0 127] }
  | .bool b => { d with words := d.words ++ [word (if b then 1 else 0) 1] }
  | .int t v =>
    if t = .u64 then { d with words := d.words ++ [word (v % 2 ^ 64).toNat 8, (v % 2 ^ 64).toNat] }
    else if t = .i64 then { d with words := d.words ++ [word 0 9, (v % 2 ^ 64).toNat] }
    else if t.signed then { d with words := d.words ++ [word ((v % 2 ^ t.bits).toNat + junk * 2 ^ t.bits) (icode t)] }
    else { d with words := d.words ++ [word v.toNat (icode t)] }
  | .big v => { d with words := d.words ++ [word 0 11, (v % 2 ^ 64).toNat, (v / 2 ^ 64 % 2 ^ 64).toNat] }
  | .float b => { d with words := d.words ++ [word (b.toNat + junk * 2 ^ 32) 13] }
  | .double b => { d with words := d.words ++ [word 0 14, b.toNat] }
  | .str s => { words := d.words ++ [word d.chars.length 15], chars := d.chars ++ strBytes s }
  | .other _ => d

/-- An integer of a type from the low bytes of a word. -/
def low (t : ITy) (w : Nat) : Int :=
  let n := w % 2 ^ t.bits
  if t.signed && decide (2 ^ (t.bits - 1) ≤ n) then (n : Int) - 2 ^ t.bits else n

/-- The four bytes at the front as a number; reading beyond the buffer is undefined. -/
def rd32 : Bytes → Res Nat
  | a :: b :: c :: d :: _ => .ok (a.toNat + 256 * b.toNat + 65536 * c.toNat + 16777216 * d.toNat)
  | _ => .ub

/-- `tape_ref::get_string_view`, tape_ref.cpp:85-99. -/
def rdStr (chars : Bytes) (i : Nat) : Res Bytes :=
  (rd32 (chars.drop i)).bind fun n => if (chars.drop (i + 4)).length < n then .ub else .ok ((chars.drop (i + 4)).take n)

/-- The element at an index of the tape, by `tape_ref_type` (tape_ref.cpp:16-18) and `next_tape_value`
(tape_ref.hpp:34-49): types of eight bytes and more are in the following words. -/
def read (d : Tape) (i : Nat) : Res V :=
  match d.words[i]? with
  | none => .ub
  | some w =>
    let c := w / 2 ^ 56
    if c = 127 then .ok .na
    else if c = 1 then .ok (.bool (w % 256 != 0))
    else if c = 11 then match d.words[i + 1]?, d.words[i + 2]? with
      | some a, some b => .ok (.big (a + 2 ^ 64 * low .i64 b))
      | _, _ => .ub
    else if c = 13 then .ok (.float (UInt32.ofNat w))
    else if c = 14 then match d.words[i + 1]? with
      | some a => .ok (.double (UInt64.ofNat a))
      | none => .ub
    else if c = 15 then (rdStr d.chars (w % 2 ^ 56)).bind fun s => .ok (.str s)
    else match ofICode c with
      | some t =>
        if t.bits = 64 then match d.words[i + 1]? with
          | some a => .ok (.int t (low t a))
          | none => .ub
        else .ok (.int t (low t w))
      | none => .ok (.other c)

/-! ### reading as a type -/

/-- Conversion of a floating point number to an integer type after the range check of `cast_from`,
element.cpp:8-38; `p` is the precision of the source (24 or 53).  Outside the range the conversion is undefined. -/
def ofFloat (p : Nat) (t : ITy) : FVal → Res Int
  | .nan => .ub
  | .pinf => if t.signed then .throws else .ub
  | .ninf => .throws
  | .fin z =>
    if t.signed then
      if rnd p (2 ^ (t.bits - 1) - 1) * one < z ∨ z < -2 ^ (t.bits - 1) * one then .throws
      else if t.fits (z.tdiv one) then .ok (z.tdiv one) else .ub
    else
      if z < 0 then .throws
      else if t.fits (z.tdiv one) then .ok (z.tdiv one) else .ub

/-- An integer of type `s` read as type `t`: `get_uint8` ... `get_int64`, element.cpp:124-450.  Where the code casts
directly there is no check; `cast_from` checks the range, from signed to unsigned only the sign. -/
def castInt (s t : ITy) (v : Int) : Res Int :=
  if s = t then .ok v
  else match s, t with
    | .i8, .u16 => .ok (wrap t v)
    | .i8, .u32 => .ok (wrap t v)
    | .i8, .u64 => .ok (wrap t v)
    | .u8, .i8 => .ok (wrap t v)
    | _, _ =>
      if s.bits < t.bits ∧ (t.signed = true ∨ s.signed = false) then .ok (wrap t v)
      else if s.signed then
        if t.signed then (if 2 ^ (t.bits - 1) - 1 < v ∨ v < -2 ^ (t.bits - 1) then .throws else .ok v)
        else (if v < 0 then .throws else .ok (wrap t v))
      else (if (if t.signed then 2 ^ (t.bits - 1) - 1 else 2 ^ t.bits - 1) < v then .throws else .ok (wrap t v))

/-- `get<T>` for an integer type, element.cpp:124-450; what is no number is refused. -/
def V.getInt (t : ITy) : V → Res Int
  | .int s v => castInt s t v
  | .big v =>
    if t.signed then (if 2 ^ (t.bits - 1) - 1 < v ∨ v < -2 ^ (t.bits - 1) then .throws else .ok v)
    else (if v < 0 then .throws else .ok (wrap t v))
  | .float b => ofFloat 24 t (decode32 b)
  | .double b => ofFloat 53 t (decode64 b)
  | _ => .throws

/-- `get_int128`, element.cpp:452-485: floating point numbers are refused. -/
def V.getBig : V → Res Int
  | .int _ v => .ok v
  | .big v => .ok v
  | _ => .throws

/-- Rounding to a multiple of `q`, ties to even. -/
def roundTo (q : Nat) (n : Nat) : Nat :=
  if q < 2 * (n % q) ∨ (2 * (n % q) = q ∧ n / q % 2 = 1) then (n / q + 1) * q else n / q * q

/-- `float(double)`. -/
def toF32 : FVal → FVal
  | .fin z =>
    let m := roundTo (max (2 ^ 925) (2 ^ (Nat.log2 z.natAbs - 23))) z.natAbs
    if 2 ^ (1074 + 128) ≤ m then (if z < 0 then .ninf else .pinf) else .fin (if z < 0 then -(m : Int) else m)
  | f => f

/-- `get_float`, element.cpp:487-526. -/
def V.getFloat : V → Res FVal
  | .int _ v => .ok (toFloat v)
  | .big v => .ok (toFloat v)
  | .float b => .ok (decode32 b)
  | .double b => .ok (toF32 (decode64 b))
  | _ => .throws

/-- `get_double`, element.cpp:528-567. -/
def V.getDouble : V → Res FVal
  | .int _ v => .ok (ofInt 53 v)
  | .big v => .ok (ofInt 53 v)
  | .float b => .ok (decode32 b)
  | .double b => .ok (decode64 b)
  | _ => .throws

/-- `get_bool`, element.cpp:569-575. -/
def V.getBool : V → Res Bool
  | .bool b => .ok b
  | _ => .throws

/-- `get_string`, element.cpp:114-122. -/
def V.getStr : V → Res Bytes
  | .str s => .ok s
  | _ => .throws

/-- Whether a getter gives no error: `is<T>`, element.hpp:52-56. -/
def isT {α : Type} : Res α → Res Bool
  | .ok _ => .ok true
  | .throws => .ok false
  | .ub => .ub
  | .diverges => .diverges

/-- `||` of two calls. -/
def orElse (a b : Res Bool) : Res Bool := a.bind fun x => if x then .ok true else b

/-- `is_number`, element.cpp:586. -/
def V.isNumber (x : V) : Res Bool := orElse (isT (x.getInt .i64)) (orElse (isT (x.getInt .u64)) (isT x.getDouble))

/-! ### comparison -/

/-- The type of a value. -/
def V.code : V → Nat
  | .na => 127
  | .bool _ => 1
  | .int t _ => icode t
  | .big _ => 11
  | .float _ => 13
  | .double _ => 14
  | .str _ => 15
  | .other _ => 128

/-- Less, equal or more by `<` and `>`: `equals_`, document.cpp:952-961. -/
def by3 {α : Type} (lt : α → α → Bool) (x y : α) : Ordering := if lt x y then .lt else if lt y x then .gt else .eq

/-- `equals_<T>` with the getter for `T`: both are read as `T`. -/
def equals {α : Type} (get : V → Res α) (lt : α → α → Bool) (a b : V) : Res Ordering :=
  (get a).bind fun x => (get b).bind fun y => .ok (by3 lt x y)

/-- The comparison by the type of the left value, document.cpp:969-999. -/
def compareNum (a b : V) : Res Ordering :=
  match a with
  | .int t _ => equals (V.getInt t) (fun x y => decide (x < y)) a b
  | .big _ => equals V.getBig (fun x y => decide (x < y)) a b
  | .float _ => equals V.getFloat FVal.lt a b
  | .double _ => equals V.getDouble FVal.lt a b
  | .str _ => equals V.getStr bytesLt a b
  | .bool _ => equals V.getBool (fun x y => !x && y) a b
  | .na => .ok .eq
  | .other _ => .ok .eq

/-- `compare_`, document.cpp:963-1010. -/
def compareV (a b : V) : Res Ordering :=
  (if a.code = b.code then .ok true
    else a.isNumber.bind fun n => if n then b.isNumber else .ok false).bind fun same =>
  if same then compareNum a b
  else if a = .na then .ok .gt
  else if b = .na then .ok .lt
  else .ok .eq

/-- What a path of a document leads to: nothing, a scalar, an object or array. -/
inductive Cell where
  | missing
  | scalar (v : V)
  | container
deriving DecidableEq, Repr

/-- `document_t::compare` of a path of two valid documents, document.cpp:165-190. -/
def compareCell : Cell → Cell → Res Ordering
  | .missing, .missing => .ok .eq
  | .missing, _ => .ok .gt
  | _, .missing => .ok .lt
  | .scalar a, .scalar b => compareV a b
  | _, _ => .ok .eq

/-- `document_t::compare` of a path with a value, document.cpp:192-216; `none`: no value. -/
def compareTo (c : Cell) : Option V → Res Ordering
  | none => .ok .lt
  | some v => match c with
    | .missing => .ok .gt
    | .scalar a => compareV a v
    | .container => .ok .eq

end Verif.DocVal
