import Verif.Base.Res
/-!
The metadata of Arrow schemas: components/vector/arrow/schema_metadata.cpp. A pointer is the list of the bytes from there to the end of the
block it points into; reading beyond the end is `.ub`. The processor is little endian.
-/
namespace Verif.ArrowMeta
open Verif

abbrev Bytes := List UInt8

/-- `metadata_map_`, schema_metadata.hpp:58. An `unordered_map` can be walked in any order; the order of the list is the one it has. -/
abbrev Meta := List (Bytes × Bytes)

/-- `metadata_map_[key] = value`, `add_option`, schema_metadata.cpp:33-35. -/
def add (k v : Bytes) : Meta → Meta
  | [] => [(k, v)]
  | e :: m => if e.1 = k then (k, v) :: m else e :: add k v m

/-- `get_option`, schema_metadata.cpp:37-44. -/
def get (k : Bytes) : Meta → Bytes
  | [] => []
  | e :: m => if e.1 = k then e.2 else get k m

/-- `memcpy` of the lower four bytes of a size, schema_metadata.cpp:67, 73, 80. -/
def put4 (n : Nat) : Bytes := [UInt8.ofNat (n % 256), UInt8.ofNat (n / 256 % 256), UInt8.ofNat (n / 65536 % 256), UInt8.ofNat (n / 16777216 % 256)]

/-- One pair, schema_metadata.cpp:69-84. -/
def putPair (e : Bytes × Bytes) : Bytes := put4 e.1.length ++ e.1 ++ (put4 e.2.length ++ e.2)

/-- `serialize_metadata`, schema_metadata.cpp:57-87. The block has exactly the size of what is written. -/
def serialize (m : Meta) : Bytes := put4 m.length ++ m.flatMap putPair

/-- `memcpy` into an `int32_t` and the pointer behind it, schema_metadata.cpp:12-13, 17-18, 24-25. -/
def get4 : Bytes → Res (Int × Bytes)
  | a :: b :: c :: d :: bs =>
    let n := a.toNat + 256 * b.toNat + 65536 * c.toNat + 16777216 * d.toNat
    .ok (if n < 2 ^ 31 then n else (n : Int) - 2 ^ 32, bs)
  | _ => .ub

/-- A length and a text of that length, schema_metadata.cpp:16-21, 23-28. A negative length becomes a huge one, for which `std::string` throws. -/
def getText (bs : Bytes) : Res (Bytes × Bytes) :=
  (get4 bs).bind fun r =>
    if r.1 < 0 then .throws
    else if r.2.length < r.1.toNat then .ub
    else .ok (r.2.take r.1.toNat, r.2.drop r.1.toNat)

/-- The loop, schema_metadata.cpp:15-30. -/
def getPairs : Nat → Bytes → Meta → Res Meta
  | 0, _, m => .ok m
  | n + 1, bs, m =>
    (getText bs).bind fun k => (getText k.2).bind fun v => getPairs n v.2 (add k.1 v.1 m)

/-- The constructor, schema_metadata.cpp:9-31; `none` is a null pointer. -/
def read : Option Bytes → Res Meta
  | none => .ok []
  | some bs => (get4 bs).bind fun r => getPairs r.1.toNat r.2 []

/-- `ARROW:extension:name`, schema_metadata.hpp:54. -/
def nameKey : Bytes := "ARROW:extension:name".toUTF8.toList

/-- `ogc`, schema_metadata.cpp:55. -/
def ogc : Bytes := [111, 103, 99]

/-- `has_extension`, schema_metadata.cpp:48-56. -/
def hasExtension (m : Meta) : Bool := !(get nameKey m).isEmpty && !ogc.isPrefixOf (get nameKey m)

/-- `ARROW:extension:metadata`, schema_metadata.hpp:55. -/
def dataKey : Bytes := "ARROW:extension:metadata".toUTF8.toList

/-- `arrow_canonical_type`, schema_metadata.cpp:89-95. -/
def canonical (name : Bytes) : Meta := add dataKey [] (add nameKey name [])

/-- `arrow.opaque`, schema_metadata.hpp:37. -/
def opaqueName : Bytes := "arrow.opaque".toUTF8.toList

/-- `non_canonical_type`, schema_metadata.cpp:97-102. -/
def nonCanonical (_type _vendor : Bytes) : Meta := add nameKey opaqueName []

end Verif.ArrowMeta
