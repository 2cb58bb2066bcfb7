import Verif.Text.Boost
/-!
Model of documents as text: `document_t::to_json` and `document_t::document_from_json`
(components/document/document.cpp, json_trie_node.cpp, container/json_object.cpp, container/json_array.cpp).

Simplifications: as for `Verif.Json` (a document is its tree, the fields of an object are visited in the order of the list).
-/
namespace Verif.Text

open Verif.Num Verif.PhysKey Verif.DocVal Verif.Json Verif.DocPack

/-- Decimal digits, as `sprintf` prints them. -/
def showNat (n : Nat) : Bytes := if n < 10 then [UInt8.ofNat (48 + n)] else showNat (n / 10) ++ [UInt8.ofNat (48 + n % 10)]

/-- `%i`. -/
def showInt (v : Int) : Bytes := if v < 0 then 45 :: showNat v.natAbs else showNat v.natAbs

/-- `create_pmr_string_` of an integer (document.cpp:894-902): `%i` and `%u` are for arguments of up to 32 bits.  The buffer
is long enough (document.cpp:880-887). -/
def showITy (lib : Lib) (t : ITy) (v : Int) : Res Bytes :=
  if t.bits = 64 then (lib.wide t.signed v).bind fun n => .ok (showInt n) else .ok (showInt v)

/-- `create_pmr_string_` of a number of floating point (document.cpp:903-912): the text and a zero byte are written to a
buffer of `size` bytes. -/
def showFloat (size : Nat) (t : Bytes) : Res Bytes := if t.length + 1 ≤ size then .ok t else .ub

/-- `value_to_string` (document.cpp:579-625).  The buffers of `float` and `double` have 9 + 6 + 1 and 17 + 6 + 1 bytes
(document.cpp:888-891,896). -/
def showV (lib : Lib) : V → Res Bytes
  | .na => .ok [110, 117, 108, 108]
  | .bool true => .ok [116, 114, 117, 101]
  | .bool false => .ok [102, 97, 108, 115, 101]
  | .int t v => showITy lib t v
  | .big _ => .ok [104, 117, 103, 101, 105, 110, 116]
  | .float b => showFloat 16 (lib.fmt32 b)
  | .double b => showFloat 24 (lib.fmt64 b)
  | .str s => .ok (34 :: s ++ [34])
  | .other _ => .ok []

/-- The comma between two elements (json_object.cpp:101-103, json_array.cpp:64-66). -/
def comma (res : Bytes) : Bytes := if 1 < res.length then res ++ [44] else res

mutual
/-- `json_trie_node::to_json` (json_trie_node.cpp:119-131). -/
def toJson (lib : Lib) : Node → Res Bytes
  | .leaf v => showV lib v
  | .obj fs => (fieldsJson lib [123] fs).bind fun r => .ok (r ++ [125])
  | .arr xs => (itemsJson lib [91] xs).bind fun r => .ok (r ++ [93])
  | .del => .ok [68, 69, 76, 69, 84, 69, 82]
/-- The loop of `json_object::to_json` (json_object.cpp:96-108); the key is a node with a text. -/
def fieldsJson (lib : Lib) (res : Bytes) : List (Bytes × Node) → Res Bytes
  | [] => .ok res
  | (k, n) :: fs =>
    (showV lib (.str k)).bind fun a => (toJson lib n).bind fun b => fieldsJson lib (comma res ++ a ++ [58] ++ b) fs
/-- The loop of `json_array::to_json` (json_array.cpp:59-70). -/
def itemsJson (lib : Lib) (res : Bytes) : List Node → Res Bytes
  | [] => .ok res
  | n :: xs => (toJson lib n).bind fun b => itemsJson lib (comma res ++ b) xs
end

/-- `document_t::build_primitive` (document.cpp:460-480): what is written to the tape. -/
def primitive : J → V
  | .null => .na
  | .bool b => .bool b
  | .int64 v => .int .i64 v
  | .uint64 v => .int .u64 v
  | .double b => .double b
  | .string s => .str s
  | .array _ => .na
  | .object _ => .na

mutual
/-- `document_t::build_index` (document.cpp:482-507); a value is read from the tape. -/
def buildIndex : J → Res Node
  | .object fs => (buildFields [] fs).bind fun gs => .ok (.obj gs)
  | .array xs => (buildItems xs).bind fun ys => .ok (.arr ys)
  | j => (Query.put (primitive j)).bind fun x => .ok (.leaf x)
/-- The loop over fields (document.cpp:490-493, 513-516); `set` is `emplace` (json_object.cpp:61-63). -/
def buildFields (acc : List (Bytes × Node)) : List (Bytes × J) → Res (List (Bytes × Node))
  | [] => .ok acc
  | (k, j) :: fs => (buildIndex j).bind fun n => buildFields (emplaceN k n acc) fs
/-- The loop over elements (document.cpp:497-499). -/
def buildItems : List J → Res (List Node)
  | [] => .ok []
  | j :: xs => (buildIndex j).bind fun n => (buildItems xs).bind fun ns => .ok (n :: ns)
end

/-- `document_t::document_from_json` (document.cpp:509-518): `parse` throws, `get_object` of what is no object is
undefined. -/
def fromJson (lib : Lib) (s : Bytes) : Res Node :=
  match parse lib s with
  | none => .throws
  | some (.object fs) => buildIndex (.object fs)
  | some _ => .ub

end Verif.Text
