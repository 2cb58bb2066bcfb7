import Verif.Lex.Model
/-! How texts, names and numbers are written in SQL. -/
namespace Verif.Lex
open Verif.Text (showNat)

/-- The characters `q` doubled. -/
def double (q : UInt8) (s : Bytes) : Bytes := s.flatMap fun c => if c = q then [c, c] else [c]

/-- A text between single quotes, with the quotes in it doubled. -/
def quoteText (s : Bytes) : Bytes := [39] ++ double 39 s ++ [39]

/-- A name between double quotes, with those in it doubled. -/
def quoteName (s : Bytes) : Bytes := [34] ++ double 34 s ++ [34]

/-- A text as `E'...'`, with quotes and backslashes in it doubled. -/
def escapeText (s : Bytes) : Bytes := [69, 39] ++ (s.flatMap fun c => if c = 39 ∨ c = 92 then [c, c] else [c]) ++ [39]

/-- Blanks: spaces, tabs, form feeds, newlines, and comments from `--` to a newline. -/
inductive Blank : Bytes → Prop
  | nil : Blank []
  | space (c : UInt8) (w : Bytes) (hc : c ∈ [32, 9, 12, 10, 13]) (h : Blank w) : Blank (c :: w)
  | comment (s : Bytes) (n : UInt8) (w : Bytes) (hs : ∀ c ∈ s, c ≠ 10 ∧ c ≠ 13) (hn : n = 10 ∨ n = 13) (h : Blank w) :
      Blank ([45, 45] ++ s ++ [n] ++ w)

/-- Blanks with a newline and a quote: the SQL standard joins the two texts. -/
def Continues (r : Bytes) : Prop :=
  ∃ w r' : Bytes, Blank w ∧ (∃ c ∈ w, c = 10 ∨ c = 13) ∧ r = w ++ 39 :: r'

/-- A name that may be written without quotes: letters, digits, _ and $, not beginning with a digit or $;
bytes from 128 on count as letters. -/
def letter (c : UInt8) : Prop := (65 ≤ c ∧ c ≤ 90) ∨ (97 ≤ c ∧ c ≤ 122) ∨ 128 ≤ c ∨ c = 95
def plainName : Bytes → Prop
  | [] => False
  | c :: r => letter c ∧ ∀ d ∈ r, letter d ∨ (48 ≤ d ∧ d ≤ 57) ∨ d = 36

/-- ASCII letters in lower case. -/
def lower (s : Bytes) : Bytes := s.map fun c => if 65 ≤ c ∧ c ≤ 90 then c + 32 else c

/-- Digits. -/
def Digits (s : Bytes) : Prop := ∀ c ∈ s, 48 ≤ c ∧ c ≤ 57

/-- Digits with a point. -/
def Point (m : Bytes) : Prop := ∃ d f : Bytes, Digits d ∧ Digits f ∧ (d ≠ [] ∨ f ≠ []) ∧ m = d ++ [46] ++ f

/-- An exponent: E or e, a sign or none, digits. -/
def Exponent (x : Bytes) : Prop :=
  ∃ (e : UInt8) (sign d : Bytes), (e = 69 ∨ e = 101) ∧ (sign = [] ∨ sign = [43] ∨ sign = [45]) ∧ Digits d ∧ d ≠ [] ∧ x = [e] ++ sign ++ d

/-- Numbers with a point, an exponent or both. -/
def Decimal (s : Bytes) : Prop :=
  Point s ∨ ∃ m x : Bytes, (Point m ∨ (Digits m ∧ m ≠ [])) ∧ Exponent x ∧ s = m ++ x

/-- A comment between slash-star and star-slash, with others in it: its inside. -/
inductive Inside : Bytes → Prop
  | nil : Inside []
  | byte (c : UInt8) (b : Bytes) (h1 : ¬ (c = 47 ∧ (b ++ [42]).head? = some 42)) (h2 : ¬ (c = 42 ∧ b.head? = some 47)) (h : Inside b) :
      Inside (c :: b)
  | nested (a b : Bytes) (ha : Inside a) (hb : Inside b) : Inside ([47, 42] ++ a ++ [42, 47] ++ b)

/-- Blank characters, and the marks that end any token: , ( ) [ ] ; -/
def blanks : Bytes := [32, 9, 12, 10, 13]
def marks : Bytes := [44, 40, 41, 91, 93, 59]

/-- The other characters that are tokens: . : + - * / % ^ < > = -/
def signs : Bytes := [46, 58, 43, 45, 42, 47, 37, 94, 60, 62, 61]

/-- Operators: any of + - * / < > = and ~ ! @ # ^ & | ` ? %, without the beginning of a comment, shorter
than 64 bytes, not a single sign, and ending in + or - only if one of the second group is in it. -/
def Operator (u : Bytes) : Prop :=
  u ≠ [] ∧ (∀ c ∈ u, c ∈ ([43, 45, 42, 47, 60, 62, 61] : Bytes) ++ [126, 33, 64, 35, 94, 38, 124, 96, 63, 37]) ∧
  ¬ [45, 45] <:+: u ∧ ¬ [47, 42] <:+: u ∧ u.length < 64 ∧ (∀ c ∈ signs, u ≠ [c]) ∧
  (u.getLast? = some 43 ∨ u.getLast? = some 45 → ∃ c ∈ u, c ∈ ([126, 33, 64, 35, 94, 38, 124, 96, 63, 37] : Bytes))

/-- The token an operator of the first group is. -/
def operatorToken : Bytes → Tok
  | [c] => .chr c
  | u => .op u

/-- `Writes t x`: the text `x` is a way to write the token `t`. -/
inductive Writes : Tok → Bytes → Prop
  | int (n : Nat) (h : n < 2 ^ 31) : Writes (.iconst n) (showNat n)
  | big (n : Nat) (h : 2 ^ 63 ≤ n) : Writes (.fconst (showNat n)) (showNat n)
  | decimal (s : Bytes) (h : Decimal s) : Writes (.fconst s) s
  | text (s : Bytes) : Writes (.sconst s) (quoteText s)
  | escaped (s : Bytes) (h : 0 ∉ s) : Writes (.sconst s) (escapeText s)
  | dollar (tag body : Bytes) (ht : tag = [] ∨ plainName tag ∧ 36 ∉ tag) (h : ¬ ([36] ++ tag ++ [36]) <:+: body ++ ([36] ++ tag)) :
      Writes (.sconst body) ([36] ++ tag ++ [36] ++ body ++ ([36] ++ tag ++ [36]))
  | bits (s : Bytes) (h : 39 ∉ s) : Writes (.bconst ([98] ++ s)) ([98, 39] ++ s ++ [39])
  | hex (s : Bytes) (h : 39 ∉ s) : Writes (.xconst ([120] ++ s)) ([120, 39] ++ s ++ [39])
  | name (s : Bytes) (hn : s ≠ []) (h : s.length < 64) : Writes (.ident s) (quoteName s)
  | plain (w : Bytes) (hw : plainName w) (hk : lower w ∉ keywordTable) (h : w.length < 64) : Writes (.ident (lower w)) w
  | keyword (w : Bytes) (hw : plainName w) (hk : lower w ∈ keywordTable) : Writes (.kw (lower w)) w
  | op (u : Bytes) (h : Operator u) (hn : u ≠ [33, 61]) : Writes (.op u) u
  | unequal : Writes (.op [60, 62]) [33, 61]
  | param (n : Nat) (h : n < 2 ^ 31) : Writes (.param n) ([36] ++ showNat n)
  | mark (c : UInt8) (h : c ∈ marks ++ signs) : Writes (.chr c) [c]
  | typecast : Writes .typecast [58, 58]
  | dotDot : Writes .dotDot [46, 46]
  | colonEquals : Writes .colonEquals [58, 61]

/-- A token, how it is written, and what stands behind it. -/
structure Piece where
  tok : Tok
  text : Bytes
  gap : Bytes

/-- The pieces one after the other. -/
def writeAll : List Piece → Bytes
  | [] => []
  | p :: l => p.text ++ p.gap ++ writeAll l

/-- Each token is written in one of its ways and has blanks behind it, that begin with a blank character
rather than a comment. There may be none beside one of the marks , ( ) [ ] ; and at the end. Between two
quoted texts there is no newline: it would join them. -/
def WellWritten : List Piece → Prop
  | [] => True
  | p :: l =>
    Writes p.tok p.text ∧ Blank p.gap ∧ (p.gap = [] ∨ ∃ c ∈ p.gap.head?, c ∈ blanks) ∧
    (∀ q ∈ l.head?, (p.gap = [] → (∃ c ∈ marks, p.text = [c] ∨ q.text.head? = some c)) ∧
      (p.text.getLast? = some 39 → q.text.head? = some 39 → ∀ c ∈ p.gap, c ≠ 10 ∧ c ≠ 13)) ∧
    WellWritten l

/-! ### Escapes -/

/-- The value of a hexadecimal digit. -/
def hexVal (c : UInt8) : Option Nat :=
  if 48 ≤ c ∧ c ≤ 57 then some (c.toNat - 48)
  else if 65 ≤ c ∧ c ≤ 70 then some (c.toNat - 55)
  else if 97 ≤ c ∧ c ≤ 102 then some (c.toNat - 87)
  else none

/-- The digits `d` have the value `n` to the base 16. -/
def Hex (d : Bytes) (n : Nat) : Prop :=
  ∃ vs : List Nat, d.map hexVal = vs.map some ∧ n = vs.foldl (fun a v => 16 * a + v) 0

/-- `Escaped x s`: between `E'` and `'`, `x` stands for the text `s`. -/
inductive Escaped : Bytes → Bytes → Prop
  | nil : Escaped [] []
  | plain (c : UInt8) (x s : Bytes) (hq : c ≠ 39) (hb : c ≠ 92) (h : Escaped x s) : Escaped ([c] ++ x) ([c] ++ s)
  | quotes (x s : Bytes) (h : Escaped x s) : Escaped ([39, 39] ++ x) ([39] ++ s)
  | letter (e c : UInt8) (x s : Bytes) (he : (e, c) ∈ [((98 : UInt8), (8 : UInt8)), (102, 12), (110, 10), (114, 13), (116, 9)]) (h : Escaped x s) :
      Escaped ([92, e] ++ x) ([c] ++ s)
  | other (c : UInt8) (x s : Bytes) (hc : c ∉ ([98, 102, 110, 114, 116, 120, 117, 85, 48, 49, 50, 51, 52, 53, 54, 55] : Bytes)) (h : Escaped x s) :
      Escaped ([92, c] ++ x) ([c] ++ s)
  | octal (a b c : Nat) (ha : a < 4) (hb : b < 8) (hc : c < 8) (x s : Bytes) (h : Escaped x s) :
      Escaped ([92, UInt8.ofNat (48 + a), UInt8.ofNat (48 + b), UInt8.ofNat (48 + c)] ++ x) ([UInt8.ofNat (64 * a + 8 * b + c)] ++ s)
  | hex (d : Bytes) (n : Nat) (hl : d.length = 2) (hn : Hex d n) (x s : Bytes) (h : Escaped x s) :
      Escaped ([92, 120] ++ d ++ x) ([UInt8.ofNat n] ++ s)
  | unicode (d : Bytes) (n : Nat) (hl : d.length = 4) (hn : Hex d n) (h0 : n ≠ 0) (hs : n < 0xD800 ∨ 0xE000 ≤ n) (x s : Bytes) (h : Escaped x s) :
      Escaped ([92, 117] ++ d ++ x) (Verif.Text.encodeUtf8 n ++ s)
  | unicode8 (d : Bytes) (n : Nat) (hl : d.length = 8) (hn : Hex d n) (h0 : n ≠ 0) (hs : n < 0xD800 ∨ 0xE000 ≤ n) (hm : n ≤ 0x10FFFF) (x s : Bytes)
      (h : Escaped x s) : Escaped ([92, 85] ++ d ++ x) (Verif.Text.encodeUtf8 n ++ s)
  | pair (d e : Bytes) (n m : Nat) (hd : d.length = 4) (he : e.length = 4) (hn : Hex d n) (hm : Hex e m) (h1 : 0xD800 ≤ n ∧ n < 0xDC00)
      (h2 : 0xDC00 ≤ m ∧ m < 0xE000) (x s : Bytes) (h : Escaped x s) :
      Escaped ([92, 117] ++ d ++ [92, 117] ++ e ++ x) (Verif.Text.encodeUtf8 (0x10000 + (n - 0xD800) * 1024 + (m - 0xDC00)) ++ s)

/-- The shape of a character in UTF-8. -/
inductive Character : List UInt8 → Prop
  | one (a : UInt8) : a ≠ 0 → a < 0x80 → Character [a]
  | two (a b : UInt8) : 0xC0 ≤ a → a < 0xE0 → b ≠ 0 → Character [a, b]
  | three (a b c : UInt8) : 0xE0 ≤ a → a < 0xF0 → b ≠ 0 → c ≠ 0 → Character [a, b, c]
  | four (a b c d : UInt8) : 0xF0 ≤ a → a < 0xF8 → b ≠ 0 → c ≠ 0 → d ≠ 0 → Character [a, b, c, d]

end Verif.Lex
