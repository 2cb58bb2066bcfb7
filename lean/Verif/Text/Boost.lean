import Verif.DocPack.Model
/-!
The libraries `document_t::to_json` and `document_t::document_from_json` rest on, which are not part of /repo: `sprintf`
and `boost::json::parse`.  The reader follows RFC 8259 with the defaults of Boost.JSON: strict, nesting up to 32
containers, texts must be UTF-8, of two equal names the last one counts, integers are `int64_t` or else `uint64_t` or else
`double`.
-/
namespace Verif.Text

/-- What is left to the C library, the compiler and Boost: the texts `%.9g` and `%.17g` give of the bits of a number, the
bits of the `double` a number text stands for, whether bytes are UTF-8, and the number that `%i` (`signed`) or `%u` prints
of a 64-bit argument, which the C standard leaves undefined. -/
structure Lib where
  fmt32 : UInt32 → Bytes
  fmt64 : UInt64 → Bytes
  double : Bytes → UInt64
  utf8 : Bytes → Bool
  wide : Bool → Int → Res Int

/-- The C standard: a conversion of the wrong type is undefined. -/
def standardWide (_ : Bool) (_ : Int) : Res Int := .ub

/-- The calling conventions of 64-bit processors: the low 32 bits are read. -/
def lowWide (signed : Bool) (v : Int) : Res Int :=
  let n := v % 2 ^ 32
  .ok (if signed ∧ 2 ^ 31 ≤ n then n - 2 ^ 32 else n)

/-! ### boost::json::value -/

/-- `boost::json::value`. -/
inductive J where
  | null
  | bool (b : Bool)
  | int64 (v : Int)
  | uint64 (v : Int)
  | double (bits : UInt64)
  | string (s : Bytes)
  | array (xs : List J)
  | object (fs : List (Bytes × J))

/-! ### numbers -/

def isDigit (c : UInt8) : Bool := 48 ≤ c && c ≤ 57

/-- The characters numbers consist of: digits, `+ - . E e`. -/
def numChar (c : UInt8) : Bool := isDigit c || c == 43 || c == 45 || c == 46 || c == 69 || c == 101

/-- At least one digit and nothing else. -/
def isDigits (s : Bytes) : Bool := !s.isEmpty && s.all isDigit

/-- An exponent or nothing: `e` or `E`, a sign or none, digits. -/
def isExp : Bytes → Bool
  | [] => true
  | c :: r => (c == 69 || c == 101) && (match r with
      | 43 :: d => isDigits d
      | 45 :: d => isDigits d
      | d => isDigits d)

/-- A fraction and an exponent, each optional. -/
def isTail : Bytes → Bool
  | 46 :: r => !(r.takeWhile isDigit).isEmpty && isExp (r.dropWhile isDigit)
  | r => isExp r

/-- A number without its sign: `0` or digits that do not begin with one, then a fraction and an exponent. -/
def isUnsigned (s : Bytes) : Bool :=
  let d := s.takeWhile isDigit
  !d.isEmpty && (d == [48] || d.head? != some 48) && isTail (s.dropWhile isDigit)

/-- A number. -/
def isNumber : Bytes → Bool
  | 45 :: r => isUnsigned r
  | r => isUnsigned r

/-- The value of digits. -/
def natOf (s : Bytes) : Nat := s.foldl (fun n c => 10 * n + (c.toNat - 48)) 0

/-- The number of an integer text. -/
def intOf : Bytes → Option Int
  | 45 :: r => if isDigits r then some (-(natOf r : Int)) else none
  | r => if isDigits r then some (natOf r) else none

/-- The value of a number text. -/
def number (lib : Lib) (s : Bytes) : J :=
  match intOf s with
  | some n => if -2 ^ 63 ≤ n ∧ n < 2 ^ 63 then .int64 n else if 0 ≤ n ∧ n < 2 ^ 64 then .uint64 n else .double (lib.double s)
  | none => .double (lib.double s)

/-! ### texts -/

def hexDigit (c : UInt8) : Option Nat :=
  if 48 ≤ c ∧ c ≤ 57 then some (c.toNat - 48)
  else if 65 ≤ c ∧ c ≤ 70 then some (c.toNat - 55)
  else if 97 ≤ c ∧ c ≤ 102 then some (c.toNat - 87)
  else none

def hex4 (a b c d : UInt8) : Option Nat :=
  match hexDigit a, hexDigit b, hexDigit c, hexDigit d with
  | some a, some b, some c, some d => some (4096 * a + 256 * b + 16 * c + d)
  | _, _, _, _ => none

/-- A code point in UTF-8. -/
def encodeUtf8 (n : Nat) : Bytes :=
  if n < 0x80 then [UInt8.ofNat n]
  else if n < 0x800 then [UInt8.ofNat (0xC0 + n / 64), UInt8.ofNat (0x80 + n % 64)]
  else if n < 0x10000 then [UInt8.ofNat (0xE0 + n / 4096), UInt8.ofNat (0x80 + n / 64 % 64), UInt8.ofNat (0x80 + n % 64)]
  else [UInt8.ofNat (0xF0 + n / 262144), UInt8.ofNat (0x80 + n / 4096 % 64), UInt8.ofNat (0x80 + n / 64 % 64),
    UInt8.ofNat (0x80 + n % 64)]

/-- What a backslash and a character stand for. -/
def escaped (c : UInt8) : Option UInt8 :=
  if c = 34 ∨ c = 92 ∨ c = 47 then some c
  else if c = 98 then some 8
  else if c = 102 then some 12
  else if c = 110 then some 10
  else if c = 114 then some 13
  else if c = 116 then some 9
  else none

/-- The rest of a text, behind its opening quote: the text and what follows its closing quote. -/
def text : Bytes → Option (Bytes × Bytes)
  | [] => none
  | c :: r =>
    if c = 34 then some ([], r)
    else if c < 32 then none
    else if c = 92 then
      match r with
      | 117 :: a :: b :: c :: d :: 92 :: 117 :: a' :: b' :: c' :: d' :: r' =>
        match hex4 a b c d with
        | none => none
        | some n =>
          if 0xD800 ≤ n ∧ n < 0xDC00 then
            match hex4 a' b' c' d' with
            | some m =>
              if 0xDC00 ≤ m ∧ m < 0xE000 then
                (text r').map fun x => (encodeUtf8 (0x10000 + (n - 0xD800) * 1024 + (m - 0xDC00)) ++ x.1, x.2)
              else none
            | none => none
          else if 0xDC00 ≤ n ∧ n < 0xE000 then none
          else (text (92 :: 117 :: a' :: b' :: c' :: d' :: r')).map fun x => (encodeUtf8 n ++ x.1, x.2)
      | 117 :: a :: b :: c :: d :: r' =>
        match hex4 a b c d with
        | none => none
        | some n => if 0xD800 ≤ n ∧ n < 0xE000 then none else (text r').map fun x => (encodeUtf8 n ++ x.1, x.2)
      | e :: r' =>
        match escaped e with
        | none => none
        | some x => (text r').map fun y => (x :: y.1, y.2)
      | [] => none
    else (text r).map fun x => (c :: x.1, x.2)

/-- A text that is UTF-8. -/
def string (lib : Lib) (s : Bytes) : Option (Bytes × Bytes) :=
  match text s with
  | some (t, r) => if lib.utf8 t then some (t, r) else none
  | none => none

/-! ### values -/

/-- Blanks. -/
def skip : Bytes → Bytes
  | [] => []
  | c :: r => if c = 32 ∨ c = 9 ∨ c = 10 ∨ c = 13 then skip r else c :: r

/-- The elements of an array, behind its bracket or a comma; `p` reads an element. -/
def elements (p : Bytes → Option (J × Bytes)) : Nat → Bytes → Option (List J × Bytes)
  | 0, _ => none
  | n + 1, s =>
    match p (skip s) with
    | none => none
    | some (v, s) =>
      match skip s with
      | 44 :: s => (elements p n s).map fun x => (v :: x.1, x.2)
      | 93 :: s => some ([v], s)
      | _ => none

/-- Of two fields with the same name the last one counts. -/
def keepLast (k : Bytes) (v : J) (fs : List (Bytes × J)) : List (Bytes × J) :=
  if k ∈ fs.map Prod.fst then fs else (k, v) :: fs

/-- The fields of an object, behind its brace or a comma. -/
def members (lib : Lib) (p : Bytes → Option (J × Bytes)) : Nat → Bytes → Option (List (Bytes × J) × Bytes)
  | 0, _ => none
  | n + 1, s =>
    match skip s with
    | 34 :: s =>
      match string lib s with
      | none => none
      | some (k, s) =>
        match skip s with
        | 58 :: s =>
          match p (skip s) with
          | none => none
          | some (v, s) =>
            match skip s with
            | 44 :: s => (members lib p n s).map fun x => (keepLast k v x.1, x.2)
            | 125 :: s => some ([(k, v)], s)
            | _ => none
        | _ => none
    | _ => none

/-- `true`, `false`, `null`, or a number. -/
def atom (lib : Lib) (s : Bytes) : Option (J × Bytes) :=
  match s with
  | 116 :: 114 :: 117 :: 101 :: r => some (.bool true, r)
  | 102 :: 97 :: 108 :: 115 :: 101 :: r => some (.bool false, r)
  | 110 :: 117 :: 108 :: 108 :: r => some (.null, r)
  | s => if isNumber (s.takeWhile numChar) then some (number lib (s.takeWhile numChar), s.dropWhile numChar) else none

/-- A value and what follows it, within `depth` more containers. -/
def value (lib : Lib) : Nat → Bytes → Option (J × Bytes)
  | 0, s =>
    match s with
    | 123 :: _ => none
    | 91 :: _ => none
    | 34 :: r => (string lib r).map fun x => (.string x.1, x.2)
    | s => atom lib s
  | depth + 1, s =>
    match s with
    | 123 :: r =>
      match skip r with
      | 125 :: r => some (.object [], r)
      | r => (members lib (value lib depth) r.length r).map fun x => (.object x.1, x.2)
    | 91 :: r =>
      match skip r with
      | 93 :: r => some (.array [], r)
      | r => (elements (value lib depth) r.length r).map fun x => (.array x.1, x.2)
    | 34 :: r => (string lib r).map fun x => (.string x.1, x.2)
    | s => atom lib s

/-- `boost::json::parse`: one value and nothing else, nesting up to `parse_options::max_depth`. -/
def parse (lib : Lib) (s : Bytes) : Option J :=
  match value lib 32 (skip s) with
  | some (v, r) => if (skip r).isEmpty then some v else none
  | none => none

end Verif.Text
