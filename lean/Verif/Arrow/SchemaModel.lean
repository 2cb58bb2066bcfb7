import Verif.Base.Res
import Verif.Text.Lemmas
/-!
Model of the schemas of the Arrow C data interface: `to_arrow_schema`
(components/vector/arrow/arrow_converter.cpp:216-244, 28-35, 90-214) and `schema_from_arrow`
(arrow_converter.cpp:245-293, arrow/scaner/arrow_type.cpp:113-407).

Simplifications, valid for the whole file.
* Texts are lists of bytes without a 0 in them.
* Schemas have no metadata and no dictionary; unions, run-end encoded columns, views, intervals and
  blobs of fixed size are left out (`.throws`).
* The kind of offsets of strings and lists (4 or 8 bytes) is not part of the type.
-/
namespace Verif.Arrow
open Verif
open Verif.Text (showNat natOf isDigit)

abbrev Name := List UInt8

/-- The types of columns that are stored in place, components/types/types.hpp. -/
inductive Scalar where
  | na | boolean | tinyint | smallint | integer | bigint | utinyint | usmallint | uinteger | ubigint
  | float | double | string | tsNs | tsUs | tsMs | tsSec
  | blob | hugeint | uhugeint
deriving DecidableEq

mutual
/-- `complex_logical_type` with the names of the fields of structs. -/
inductive STy where
  | scalar (s : Scalar)
  | decimal (width scale : Nat)
  | list (t : STy)
  | array (k : Nat) (t : STy)
  | struct (fs : SFields)
  | map (key value : STy)
inductive SFields where
  | nil
  | cons (name : Name) (t : STy) (fs : SFields)
end

mutual
/-- `ArrowSchema`, arrow.hpp:16-35: format, name and children. -/
inductive Sch where
  | mk (format name : Name) (cs : Schs)
inductive Schs where
  | nil
  | cons (c : Sch) (cs : Schs)
end

def Sch.name : Sch → Name
  | .mk _ n _ => n

/-! ## Out -/

/-- `add_name`, arrow_converter.cpp:28-35: `std::make_unique<char>(n)` is ONE character with the value
`n`; whatever is longer than the final 0 is written behind it. -/
def addName : Name → Res Name
  | [] => .ok []
  | _ :: _ => .ub

/-- The formats of arrow_converter.cpp:94-146, 154-157: "b", "c", "s", "i", "l", "C", "S", "I", "L",
"f", "g", "U", "tsu:", "tss:", "tsn:", "tsm:", "n"; the other types throw (211-212). -/
def scalarFormat : Scalar → Res Name
  | .boolean => .ok [98]
  | .tinyint => .ok [99]
  | .smallint => .ok [115]
  | .integer => .ok [105]
  | .bigint => .ok [108]
  | .utinyint => .ok [67]
  | .usmallint => .ok [83]
  | .uinteger => .ok [73]
  | .ubigint => .ok [76]
  | .float => .ok [102]
  | .double => .ok [103]
  | .string => .ok [85]
  | .tsUs => .ok [116, 115, 117, 58]
  | .tsSec => .ok [116, 115, 115, 58]
  | .tsNs => .ok [116, 115, 110, 58]
  | .tsMs => .ok [116, 115, 109, 58]
  | .na => .ok [110]
  | .blob => .throws
  | .hugeint => .throws
  | .uhugeint => .throws

/-- "d:<width>,<scale>". -/
def decimalFormat (w s : Nat) : Name := [100, 58] ++ showNat w ++ [44] ++ showNat s

/-- "+w:<size>". -/
def arrayFormat (k : Nat) : Name := [43, 119, 58] ++ showNat k

/-- "l", "key", "value", "entries". -/
def nameL : Name := [108]
def nameKey : Name := [107, 101, 121]
def nameValue : Name := [118, 97, 108, 117, 101]
def nameEntries : Name := [101, 110, 116, 114, 105, 101, 115]

mutual
/-- `set_arrow_format`, arrow_converter.cpp:90-214: format and children. The children of a struct
without fields are the address of the first element of an empty vector (178). A map is handed over as
its struct of key and value (75-88). -/
def setFormat : STy → Res (Name × Schs)
  | .scalar s => (scalarFormat s).map' fun f => (f, .nil)
  | .decimal w s => (addName (decimalFormat w s)).map' fun f => (f, .nil)
  | .list t => (setFormat t).map' fun p => ([43, 108], .cons (.mk p.1 nameL p.2) .nil)
  | .array k t => (addName (arrayFormat k)).bind fun f => (setFormat t).map' fun p => (f, .cons (.mk p.1 [] p.2) .nil)
  | .struct fs =>
    match fs with
    | .nil => .ub
    | .cons n t fs => (addName n).bind fun n' => (setFormat t).bind fun p => (setFields fs).map' fun cs =>
        ([43, 115], .cons (.mk p.1 n' p.2) cs)
  | .map k v => (addName nameKey).bind fun kn => (setFormat k).bind fun kp => (addName nameValue).bind fun vn =>
      (setFormat v).map' fun vp =>
        ([43, 109], .cons (.mk [43, 115] nameEntries (.cons (.mk kp.1 kn kp.2) (.cons (.mk vp.1 vn vp.2) .nil))) .nil)
/-- The fields, arrow_converter.cpp:179-187. -/
def setFields : SFields → Res Schs
  | .nil => .ok .nil
  | .cons n t fs => (addName n).bind fun n' => (setFormat t).bind fun p => (setFields fs).map' fun cs => .cons (.mk p.1 n' p.2) cs
end

/-- `to_arrow_schema`, arrow_converter.cpp:235-240: the children of the schema of a chunk. -/
def toSchema : List (Name × STy) → Res (List Sch)
  | [] => .ok []
  | (n, t) :: cs => (addName n).bind fun n' => (setFormat t).bind fun p => (toSchema cs).map' fun r => .mk p.1 n' p.2 :: r

/-! ## In -/

/-- `std::stoi` and `std::stoull` on texts that begin with a digit, with the largest value; blanks and
signs in front are left out. -/
def stoN (max : Nat) (s : Name) : Res Nat :=
  match s with
  | [] => .throws
  | c :: _ => if isDigit c then (if natOf (s.takeWhile isDigit) ≤ max then .ok (natOf (s.takeWhile isDigit)) else .throws) else .throws

/-- `split_string`, arrow_type_info.hpp:172-180: what lies between the delimiters; nothing behind the
last one counts. `cur` is the piece so far. -/
def splitAt' (d : UInt8) : Name → Name → List Name
  | [], cur => if cur = [] then [] else [cur]
  | c :: cs, cur => if c = d then cur :: splitAt' d cs [] else splitAt' d cs (cur ++ [c])

/-- What is behind the first colon, arrow_type.cpp:227, 281; all of it if there is none. -/
def behindColon (s : Name) : Name :=
  match s.dropWhile fun c => c != 58 with
  | [] => s
  | _ :: r => r

/-- The decimals of `type_from_format`, arrow_type.cpp:138-182. -/
def decimalOf (f : Name) : Res STy :=
  match splitAt' 58 f [] with
  | [_, ps] =>
    match splitAt' 44 ps [] with
    | [w, s] => (stoN (2 ^ 64 - 1) w).bind fun w => (stoN (2 ^ 64 - 1) s).bind fun s =>
        if w > 38 then .throws else .ok (.decimal (w % 256) (s % 256))
    | [w, s, b] => (stoN (2 ^ 64 - 1) w).bind fun w => (stoN (2 ^ 64 - 1) s).bind fun s => (stoN (2 ^ 64 - 1) b).bind fun b =>
        if w > 38 ∨ b > 128 then .throws
        else if b = 32 ∨ b = 64 ∨ b = 128 then .ok (.decimal (w % 256) (s % 256)) else .throws
    | _ => .throws
  | _ => .throws

/-- `type_from_format` without children, arrow_type.cpp:113-256; `none` is a null pointer. Strings and
blobs of all sizes are one type; intervals ("tD", "ti") and blobs of a fixed size ("w") are left out. -/
def plainFormat (f : Name) : Res (Option STy) :=
  if f = [110] then .ok (some (.scalar .na))
  else if f = [98] then .ok (some (.scalar .boolean))
  else if f = [99] then .ok (some (.scalar .tinyint))
  else if f = [115] then .ok (some (.scalar .smallint))
  else if f = [105] then .ok (some (.scalar .integer))
  else if f = [108] then .ok (some (.scalar .bigint))
  else if f = [67] then .ok (some (.scalar .utinyint))
  else if f = [83] then .ok (some (.scalar .usmallint))
  else if f = [73] then .ok (some (.scalar .uinteger))
  else if f = [76] then .ok (some (.scalar .ubigint))
  else if f = [102] then .ok (some (.scalar .float))
  else if f = [103] then .ok (some (.scalar .double))
  else if f.head? = some 100 then (decimalOf f).map' some
  else if f = [117] ∨ f = [85] ∨ f = [118, 117] then .ok (some (.scalar .string))
  else if f = [122] ∨ f = [90] ∨ f = [118, 122] then .ok (some (.scalar .blob))
  else if f.head? = some 119 then .throws
  else if f.take 2 = [116, 115] then
    (if f[2]? = some 110 then .ok (some (.scalar .tsNs))
     else if f[2]? = some 117 then .ok (some (.scalar .tsUs))
     else if f[2]? = some 109 then .ok (some (.scalar .tsMs))
     else if f[2]? = some 115 then .ok (some (.scalar .tsSec)) else .throws)
  else .ok none

mutual
/-- `type_from_format`, arrow_type.cpp:264-371, with `create_list_type` (373-385). The fields of a map
are read without their names (345-357). -/
def typeOf : Sch → Res STy
  | .mk f _ cs => (plainFormat f).bind fun o =>
    match o with
    | some t => .ok t
    | none =>
      if f = [43, 108] ∨ f = [43, 76] ∨ f = [43, 118, 108] ∨ f = [43, 118, 76] then
        match cs with
        | .cons c _ => (typeOf c).map' .list
        | .nil => .ub
      else if f.take 2 = [43, 119] then
        (stoN (2 ^ 31 - 1) (behindColon f)).bind fun k =>
          match cs with
          | .cons c _ => (typeOf c).map' (.array k)
          | .nil => .ub
      else if f = [43, 115] then
        match cs with
        | .nil => .throws
        | .cons c cs => (typeOf c).bind fun t => (fieldsOf cs).map' fun fs => .struct (.cons c.name t fs)
      else if f = [43, 109] then
        match cs with
        | .cons (.mk _ _ (.cons k (.cons v _))) _ => (typeOf k).bind fun kt => (typeOf v).map' fun vt => .map kt vt
        | _ => .ub
      else .throws
/-- The fields of a struct, arrow_type.cpp:294-298. -/
def fieldsOf : Schs → Res SFields
  | .nil => .ok .nil
  | .cons c cs => (typeOf c).bind fun t => (fieldsOf cs).map' fun fs => .cons c.name t fs
end

/-! ### Names of columns -/

/-- The names of arrow_converter.cpp:264-274: columns without a name are called "v<number>". -/
def columnNames : Nat → List Sch → List Name
  | _, [] => []
  | i, c :: cs => (if c.name = [] then 118 :: showNat i else c.name) :: columnNames (i + 1) cs

/-- `column_name + "_" + std::to_string(count)`, arrow_converter.cpp:251, 254. -/
def withCount (n : Name) (c : Nat) : Name := n ++ 95 :: showNat c

/-- The names seen so far with their counts, `name_map`. -/
abbrev Seen := List (Name × Nat)

/-- `name_map[n] = c` for a name that is there. -/
def Seen.put (m : Seen) (n : Name) (c : Nat) : Seen := m.map fun p => if p.1 = n then (n, c) else p

/-- The loop of arrow_converter.cpp:252-255 from the count `c` on. `fuel` bounds the rounds; running
out of it is `.diverges`. -/
def freshName (m : Seen) (n : Name) : (fuel c : Nat) → Res Nat
  | 0, _ => .diverges
  | fuel + 1, c => if withCount n c ∈ m.map Prod.fst then freshName m n fuel (c + 1) else .ok c

/-- `deduplicate`, arrow_converter.cpp:245-260. -/
def deduplicate (m : Seen) : List Name → Res (List Name)
  | [] => .ok []
  | n :: ns =>
    match m.find? fun p => p.1 = n with
    | none => (deduplicate ((n, 1) :: m) ns).map' fun r => n :: r
    | some p => (freshName m n (m.length + 1) p.2).bind fun c =>
        (deduplicate ((withCount n c, 1) :: m.put n c) ns).map' fun r => withCount n c :: r

/-- The types of all columns, arrow_converter.cpp:276-283. -/
def columnTypes : List Sch → Res (List STy)
  | [] => .ok []
  | c :: cs => (typeOf c).bind fun t => (columnTypes cs).map' fun ts => t :: ts

/-- `schema_from_arrow`, arrow_converter.cpp:286-293, of a schema whose children are not released. -/
def fromSchema (cs : List Sch) : Res (List (Name × STy)) :=
  (deduplicate [] (columnNames 0 cs)).bind fun ns => (columnTypes cs).map' fun ts => List.zip ns ts

end Verif.Arrow
