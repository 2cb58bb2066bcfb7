import Verif.Base.Res
import Verif.Text.Lemmas
import Verif.Lex.Keywords
/-!
Model of the scanner of SQL texts, components/sql/parser/scan.l (from which scan.cpp is generated),
with scansup.cpp and keyword.cpp.

Simplifications, valid for the whole file.
* The rules of flex (the longest match wins, the first rule wins a tie) are resolved by hand: for every
  first character the rule that wins is written out. Rules that throw text back (`yyless`) leave it in the
  rest.
* Texts and identifiers with Unicode escapes (`U&'...'`, `U&"..."`) are left out (`.throws`).
* Locations, warnings and the size of the literal buffer are left out; `pg_verifymbstr` has no effect (its
  result is dropped, scan.l:540-543).
* Texts are shorter than 2^31 bytes.
-/
namespace Verif.Lex
open Verif
open Verif.Text (natOf isDigit hexDigit encodeUtf8)

abbrev Bytes := List UInt8

/-- The tokens of gram.y:590-602 with their values. `kw` are keywords, `chr` characters. -/
inductive Tok where
  | iconst (n : Int)
  | fconst (s : Bytes)
  | sconst (s : Bytes)
  | bconst (s : Bytes)
  | xconst (s : Bytes)
  | ident (s : Bytes)
  | op (s : Bytes)
  | param (n : Int)
  | kw (s : Bytes)
  | chr (c : UInt8)
  | typecast
  | dotDot
  | colonEquals
deriving DecidableEq

/-! ### Characters -/

/-- `newline`, scan.l:196. -/
def isNewline (c : UInt8) : Bool := c == 10 || c == 13

/-- `horiz_space`, scan.l:195. -/
def isHoriz (c : UInt8) : Bool := c == 32 || c == 9 || c == 12

/-- `space`, scan.l:194. -/
def isSpace (c : UInt8) : Bool := isHoriz c || isNewline c

/-- `ident_start` and `dolq_start`, scan.l:329, 272. -/
def identStart (c : UInt8) : Bool := (65 ≤ c && c ≤ 90) || (97 ≤ c && c ≤ 122) || 128 ≤ c || c == 95

/-- `dolq_cont`, scan.l:273. -/
def dolqCont (c : UInt8) : Bool := identStart c || isDigit c

/-- `ident_cont`, scan.l:330. -/
def identCont (c : UInt8) : Bool := identStart c || isDigit c || c == 36

/-- `self`, scan.l:348: , ( ) [ ] . ; : + - * / % ^ < > = -/
def isSelf (c : UInt8) : Bool := [44, 40, 41, 91, 93, 46, 59, 58, 43, 45, 42, 47, 37, 94, 60, 62, 61].contains c

/-- `op_chars`, scan.l:349: ~ ! @ # ^ & | ` ? + - * / % < > = -/
def isOp (c : UInt8) : Bool := [126, 33, 64, 35, 94, 38, 124, 96, 63, 43, 45, 42, 47, 37, 60, 62, 61].contains c

/-- The characters of scan.l:853-856: ~ ! @ # ^ & | ` ? % -/
def isSpecialOp (c : UInt8) : Bool := [126, 33, 64, 35, 94, 38, 124, 96, 63, 37].contains c

/-- + or -. -/
def isPM (c : UInt8) : Bool := c == 43 || c == 45

/-- A text as a C string. -/
def cstr (s : Bytes) : Bytes := s.takeWhile fun c => c != 0

/-! ### Names -/

/-- The lower case of ASCII letters, scansup.cpp:37-38, keyword.cpp:47-50. -/
def lowerByte (c : UInt8) : UInt8 := if 65 ≤ c && c ≤ 90 then c + 32 else c

/-- `pg_utf_mblen`, pg_functions.cpp:161-183. -/
def mblen (c : UInt8) : Nat :=
  if c &&& 0x80 = 0 then 1 else if c &&& 0xe0 = 0xc0 then 2 else if c &&& 0xf0 = 0xe0 then 3 else if c &&& 0xf8 = 0xf0 then 4 else 1

theorem mblen_pos (c : UInt8) : 0 < mblen c := by
  unfold mblen; repeat' split
  all_goals omega

/-- `NAMEDATALEN`, scansup.h:25. -/
def NAMEDATALEN : Nat := 64

/-- `pg_encoding_mbcliplen`, scansup.cpp:6-26; `room` is `limit - clen`. -/
def clipLen (room : Nat) (s : Bytes) : Nat :=
  match s with
  | [] => 0
  | c :: r =>
    if c = 0 then 0
    else if mblen c > room then 0
    else if mblen c = room then mblen c
    else mblen c + clipLen (room - mblen c) (r.drop (mblen c - 1))
termination_by s.length
decreasing_by simp; omega

/-- `truncate_identifier`, scansup.cpp:47-63. -/
def truncName (s : Bytes) : Bytes := if s.length ≥ NAMEDATALEN then s.take (clipLen (NAMEDATALEN - 1) s) else s

/-- `downcase_truncate_identifier`, scansup.cpp:28-45. -/
def foldName (s : Bytes) : Bytes := truncName (s.map lowerByte)

/-- `strcmp`: less, equal or greater. -/
def cmpBytes : Bytes → Bytes → Ordering
  | [], [] => .eq
  | [], _ :: _ => .lt
  | _ :: _, [] => .gt
  | a :: as, b :: bs => if a < b then .lt else if b < a then .gt else cmpBytes as bs

/-- The binary search of keyword.cpp:57-71 in the words `low` to `low + n - 1`. -/
def search (table : List Bytes) (w : Bytes) (low n : Nat) : Option Bytes :=
  if n = 0 then none
  else match table[low + (n - 1) / 2]? with
    | none => none
    | some m =>
      match cmpBytes m w with
      | .eq => some m
      | .lt => search table w (low + (n - 1) / 2 + 1) (n - (n - 1) / 2 - 1)
      | .gt => search table w low ((n - 1) / 2)
termination_by n
decreasing_by all_goals omega

/-- `ScanKeywordLookup`, keyword.cpp:30-74. -/
def lookup (w : Bytes) : Option Bytes :=
  if w.length ≥ NAMEDATALEN then none else search keywordTable (w.map lowerByte) 0 keywordTable.length

/-! ### Quoted texts -/

/-- What `quotecontinue` (scan.l:225) leaves behind a quote, if it matches there: blanks and comments
with a newline among them and another quote. `nl` tells whether a newline was seen, `com` whether this is
inside a comment. -/
def cont (nl com : Bool) : Bytes → Option Bytes
  | [] => none
  | c :: r =>
    if com then (if isNewline c then cont true false r else cont nl true r)
    else if c = 39 then (if nl then some r else none)
    else if isNewline c then cont true false r
    else if isHoriz c then cont nl false r
    else if c = 45 then
      match r with
      | 45 :: r' => cont nl true r'
      | _ => none
    else none

theorem cont_length : ∀ (s : Bytes) (nl com : Bool) (r : Bytes), cont nl com s = some r → r.length < s.length
  | [], _, _, _, h => by simp [cont] at h
  | c :: s, nl, com, r, h => by
    unfold cont at h
    split at h
    · split at h
      · have := cont_length s _ _ r h; simp; omega
      · have := cont_length s _ _ r h; simp; omega
    · split at h
      · split at h
        · cases h; simp
        · cases h
      · split at h
        · have := cont_length s _ _ r h; simp; omega
        · split at h
          · have := cont_length s _ _ r h; simp; omega
          · split at h
            · split at h
              · have := cont_length _ _ _ r h; simp; omega
              · cases h
            · cases h

/-- The state `xq` behind the opening quote: the text and the rest, scan.l:532-546, 576-581, 654-656, 661. -/
def quoted (s : Bytes) : Res (Bytes × Bytes) :=
  match s with
  | [] => .throws
  | c :: r =>
    if c = 39 then
      if r.head? = some 39 then (quoted r.tail).map' fun p => (39 :: p.1, p.2)
      else match _h : cont false false r with
        | some r' => quoted r'
        | none => .ok ([], r)
    else (quoted r).map' fun p => (c :: p.1, p.2)
termination_by s.length
decreasing_by
  · simp; omega
  · have := cont_length _ _ _ _ _h; simp; omega
  · simp

/-- The states `xb` and `xh`, scan.l:440-455, 469-476. -/
def bits (s : Bytes) : Res (Bytes × Bytes) :=
  match s with
  | [] => .throws
  | c :: r =>
    if c = 39 then
      match _h : cont false false r with
      | some r' => bits r'
      | none => .ok ([], r)
    else (bits r).map' fun p => (c :: p.1, p.2)
termination_by s.length
decreasing_by
  · have := cont_length _ _ _ _ _h; simp; omega
  · simp

/-- An octal digit. -/
def isOct (c : UInt8) : Bool := 48 ≤ c && c ≤ 55

/-- The value of hexadecimal digits; `none` if one of them is none. -/
def hexOf : Bytes → Option Nat
  | [] => some 0
  | s => s.foldl (fun n c => match n, hexDigit c with
    | some n, some d => some (16 * n + d)
    | _, _ => none) (some 0)

/-- `xeunicode` behind the backslash, scan.l:253: the code point and the rest. -/
def unicode : Bytes → Option (Nat × Bytes)
  | 117 :: r => if r.length < 4 then none else (hexOf (r.take 4)).map fun n => (n, r.drop 4)
  | 85 :: r => if r.length < 8 then none else (hexOf (r.take 8)).map fun n => (n, r.drop 8)
  | _ => none

/-- `addunicode`, scan.l:1247-1263. -/
def addUnicode (c : Nat) : Res Bytes := if c = 0 ∨ c > 0x10FFFF then .throws else .ok (encodeUtf8 c)

/-- `unescape_single_char`, scan.l:1428-1449. -/
def unescape (c : UInt8) : UInt8 :=
  if c = 98 then 8 else if c = 102 then 12 else if c = 110 then 10 else if c = 114 then 13 else if c = 116 then 9 else c

/-- An escape in the state `xe`, behind the backslash: the bytes it stands for and the rest,
scan.l:585-653, 657-661. -/
def escape (s : Bytes) : Res (Bytes × Bytes) :=
  match s with
  | [] => .throws
  | c :: r =>
    if isOct c then
      let d := (s.take 3).takeWhile isOct
      .ok ([UInt8.ofNat (d.foldl (fun n c => 8 * n + (c.toNat - 48)) 0)], s.drop d.length)
    else if c = 120 then
      let d := (r.take 2).takeWhile fun c => (hexDigit c).isSome
      if d = [] then .ok ([120], r)
      else match hexOf d with
        | some n => .ok ([UInt8.ofNat n], r.drop d.length)
        | none => .ub
    else if c = 117 ∨ c = 85 then
      match unicode s with
      | none => .throws
      | some (n, r1) =>
        if 0xD800 ≤ n ∧ n ≤ 0xDBFF then
          match r1 with
          | 92 :: r2 =>
            match unicode r2 with
            | some (m, r3) =>
              if 0xDC00 ≤ m ∧ m ≤ 0xDFFF then
                (addUnicode (n % 1024 * 1024 + 0x10000 + m % 1024)).map' fun b => (b, r3)
              else .throws
            | none => .throws
          | _ => .throws
        else if 0xDC00 ≤ n ∧ n ≤ 0xDFFF then .throws
        else (addUnicode n).map' fun b => (b, r1)
    else .ok ([unescape c], r)

/-- The state `xe` behind the opening quote, scan.l:532-546, 576-578, 582-661. The last case is no
escape that leaves more than it was given; there is none. -/
def equoted (s : Bytes) : Res (Bytes × Bytes) :=
  match s with
  | [] => .throws
  | c :: r =>
    if c = 39 then
      if r.head? = some 39 then (equoted r.tail).map' fun p => (39 :: p.1, p.2)
      else match _h : cont false false r with
        | some r' => equoted r'
        | none => .ok ([], r)
    else if c = 92 then
      match escape r with
      | .ok (b, r') => if _h : r'.length ≤ r.length then (equoted r').map' fun p => (b ++ p.1, p.2) else .diverges
      | .throws => .throws
      | .ub => .ub
      | .diverges => .diverges
    else (equoted r).map' fun p => (c :: p.1, p.2)
termination_by s.length
decreasing_by
  · simp; omega
  · have := cont_length _ _ _ _ _h; simp; omega
  · simp; omega
  · simp

/-- Whether a name of a delimiter, or its end, comes next. -/
def nameNext : Bytes → Bool
  | [] => true
  | d :: _ => d == 36 || identStart d

/-- `dolqdelim`, scan.l:274, at the beginning of a text: `$$` or `$name$`. -/
def delim : Bytes → Option Bytes
  | [] => none
  | c :: r =>
    if c = 36 ∧ nameNext r ∧ (r.dropWhile dolqCont).head? = some 36 then
      some (36 :: r.takeWhile dolqCont ++ [36])
    else none

/-- The state `xdolq`, scan.l:676-706. A `$` that is not the beginning of the delimiter is part of the
text, and so are the characters up to the next `$`; they are added one by one here. -/
def dollar (start : Bytes) : Bytes → Res (Bytes × Bytes)
  | [] => .throws
  | c :: r =>
    if delim (c :: r) = some start then .ok ([], (c :: r).drop start.length)
    else (dollar start r).map' fun p => (c :: p.1, p.2)

/-- The state `xd`, scan.l:718-729, 776-782. -/
def dquoted : Bytes → Res (Bytes × Bytes)
  | [] => .throws
  | c :: r =>
    if c = 34 then
      match r with
      | 34 :: r' => (dquoted r').map' fun p => (34 :: p.1, p.2)
      | _ => .ok ([], r)
    else (dquoted r).map' fun p => (c :: p.1, p.2)

/-! ### Comments, numbers, operators -/

/-- The state `xc`, scan.l:401-426. -/
def comment (depth : Nat) : Bytes → Res Bytes
  | [] => .throws
  | c :: r =>
    match r with
    | [] => .throws
    | d :: r' =>
      if c = 47 ∧ d = 42 then comment (depth + 1) r'
      else if c = 42 ∧ d = 47 then (if depth = 0 then .ok r' else comment (depth - 1) r')
      else comment depth (d :: r')

/-- The value of an `int` that gets `n`. -/
def wrap32 (n : Nat) : Int := if n % 2 ^ 32 < 2 ^ 31 then (n % 2 ^ 32 : Nat) else (n % 2 ^ 32 : Nat) - 2 ^ 32

/-- `process_integer_literal`, scan.l:1180-1201. `HAVE_LONG_INT_64` is defined nowhere, so the check of
1190-1193 is not compiled; `ival` is an `int` (scanner.h:31). -/
def intLit (d : Bytes) : Tok := if natOf d > 2 ^ 63 - 1 then .fconst d else .iconst (wrap32 (natOf d))

/-- The exponent behind a number, if there is one: `real`, scan.l:365. -/
def exponent : Bytes → Option Bytes
  | [] => none
  | e :: r =>
    if e = 69 ∨ e = 101 then
      match r with
      | [] => none
      | c :: r' =>
        if isPM c then (if r'.takeWhile isDigit = [] then none else some (e :: c :: r'.takeWhile isDigit))
        else if (c :: r').takeWhile isDigit = [] then none else some (e :: (c :: r').takeWhile isDigit)
    else none

/-- Whether `realfail1` or `real` match behind a number: an E follows. -/
def hasE (s : Bytes) : Bool := s.head? == some 69 || s.head? == some 101

/-- A number, scan.l:915-955. -/
def number (s : Bytes) : Tok × Bytes :=
  let d := s.takeWhile isDigit
  let r := s.dropWhile isDigit
  if r.head? = some 46 ∧ ¬ (d ≠ [] ∧ r.tail.head? = some 46) then
    let f := r.tail.takeWhile isDigit
    let r' := r.tail.dropWhile isDigit
    match exponent r' with
    | some e => (.fconst (d ++ 46 :: f ++ e), r'.drop e.length)
    | none => (.fconst (d ++ 46 :: f), r')
  else
    match exponent r with
    | some e => (.fconst (d ++ e), r.drop e.length)
    | none => (if hasE r then .fconst d else intLit d, r)

/-- An operator up to the beginning of a comment, scan.l:824-838. -/
def beforeComment : Bytes → Bytes
  | [] => []
  | c :: r => if (c = 47 ∧ r.head? = some 42) ∨ (c = 45 ∧ r.head? = some 45) then [] else c :: beforeComment r

/-- All + and - at the end but the first character taken away. -/
def stripPM : Bytes → Bytes
  | [] => []
  | c :: r => c :: (r.reverse.dropWhile isPM).reverse

/-- The characters an operator keeps, scan.l:824-871. -/
def opText (t : Bytes) : Bytes :=
  let t := beforeComment t
  if 1 < t.length ∧ (t.getLast?).any isPM ∧ ¬ t.any isSpecialOp then stripPM t else t

/-- The operator that begins with the run `t` of its characters, scan.l:811-907. -/
def operator (t : Bytes) : Res (Tok × Bytes) :=
  let u := opText t
  match u with
  | [] => .ub
  | [c] => if isSelf c then .ok (.chr c, u) else .ok (.op u, u)
  | _ => if u.length ≥ NAMEDATALEN then .throws else if u = [33, 61] then .ok (.op [60, 62], u) else .ok (.op u, u)

/-! ### The scanner -/

/-- One rule in the initial state, scan.l:388-989: the token, if any, and the rest. -/
def step (c : UInt8) (r : Bytes) : Res (Option Tok × Bytes) :=
  if isSpace c then .ok (none, r)
  else if c = 45 ∧ r.head? = some 45 then .ok (none, r.dropWhile fun c => !isNewline c)
  else if c = 47 ∧ r.head? = some 42 then (comment 0 r.tail).map' fun r' => (none, r')
  else if c = 39 then (quoted r).map' fun p => (some (.sconst p.1), p.2)
  else if (c = 98 ∨ c = 66) ∧ r.head? = some 39 then (bits r.tail).map' fun p => (some (.bconst (98 :: p.1)), p.2)
  else if (c = 120 ∨ c = 88) ∧ r.head? = some 39 then (bits r.tail).map' fun p => (some (.xconst (120 :: p.1)), p.2)
  else if (c = 110 ∨ c = 78) ∧ r.head? = some 39 then
    match lookup [110, 99, 104, 97, 114] with
    | some k => .ok (some (.kw k), r)
    | none => .ok (some (.ident [110]), r)
  else if (c = 101 ∨ c = 69) ∧ r.head? = some 39 then (equoted r.tail).map' fun p => (some (.sconst (cstr p.1)), p.2)
  else if (c = 117 ∨ c = 85) ∧ r.head? = some 38 then
    (if r.tail.head? = some 39 ∨ r.tail.head? = some 34 then .throws else .ok (some (.ident [117]), r))
  else if c = 36 then
    match delim (c :: r) with
    | some d => (dollar d (r.drop (d.length - 1))).map' fun p => (some (.sconst p.1), p.2)
    | none =>
      if r.takeWhile isDigit = [] then .ok (some (.chr 36), r)
      else .ok (some (.param (wrap32 (min (natOf (r.takeWhile isDigit)) (2 ^ 63 - 1)))), r.dropWhile isDigit)
  else if c = 34 then
    (dquoted r).bind fun p => if p.1 = [] then .throws else .ok (some (.ident (truncName p.1)), p.2)
  else if c = 58 ∧ r.head? = some 58 then .ok (some .typecast, r.tail)
  else if c = 46 ∧ r.head? = some 46 then .ok (some .dotDot, r.tail)
  else if c = 58 ∧ r.head? = some 61 then .ok (some .colonEquals, r.tail)
  else if isDigit c ∨ (c = 46 ∧ (r.head?).any isDigit) then .ok (some (number (c :: r)).1, (number (c :: r)).2)
  else if isOp c then
    (operator ((c :: r).takeWhile isOp)).map' fun p => (some p.1, (c :: r).drop p.2.length)
  else if identStart c then
    match lookup ((c :: r).takeWhile identCont) with
    | some k => .ok (some (.kw k), (c :: r).dropWhile identCont)
    | none => .ok (some (.ident (foldName ((c :: r).takeWhile identCont))), (c :: r).dropWhile identCont)
  else .ok (some (.chr c), r)

def consOpt : Option Tok → List Tok → List Tok
  | none, ts => ts
  | some t, ts => t :: ts

/-- All tokens of a text, `core_yylex` up to its end. A rule that takes nothing would go on for ever. -/
def lex (s : Bytes) : Res (List Tok) :=
  match s with
  | [] => .ok []
  | c :: r =>
    match step c r with
    | .ok (t, r') => if _h : r'.length ≤ r.length then (lex r').map' (consOpt t) else .diverges
    | .throws => .throws
    | .ub => .ub
    | .diverges => .diverges
termination_by s.length
decreasing_by simp; omega

/-- The tokens of a query, parser.cpp:30-53, scan.l:1072-1099: up to the first 0. -/
def lexSql (q : Bytes) : Res (List Tok) := lex (cstr q)

end Verif.Lex
