import Verif.Json.Spec
import Verif.Msgpack.Model
import Verif.Query.AggModel
/-!
Model of documents as MessagePack: the packer of components/document/msgpack/msgpack_encoder.hpp and the decoder of
components/document/msgpack/msgpack_encoder.cpp.

Simplifications: as for `Verif.Json` (a document is its tree) and `Verif.Msgpack` (the wire format is taken from its
specification).  Some versions of msgpack-c pack a double that is an integer as an integer; the library is not part of
/repo, so `shrink` says whether it does, and the theorems hold for both.  The variant that fills a `msgpack::object`
instead of a stream (msgpack_encoder.cpp:63-135) is not modelled: its strings point to a destroyed temporary.
-/
namespace Verif.DocPack

open Verif.Num Verif.PhysKey Verif.DocVal Verif.Json Verif.Msgpack

/-- The double of a float, `get_double` (element.cpp:528-567) of a `FLOAT`: the bits of the same number.  (The payload of
a NaN is kept.) -/
def wideNat (b : Nat) : Nat :=
  let s := b / 2 ^ 31 * 2 ^ 63
  let ex := b / 2 ^ 23 % 2 ^ 8
  let mant := b % 2 ^ 23
  if ex = 255 then s + 2047 * 2 ^ 52 + mant * 2 ^ 29
  else if ex = 0 then
    if mant = 0 then s
    else s + (Nat.log2 mant + 874) * 2 ^ 52 + (mant - 2 ^ Nat.log2 mant) * 2 ^ (52 - Nat.log2 mant)
  else s + (ex + 896) * 2 ^ 52 + mant * 2 ^ 29

def wide (b : UInt32) : UInt64 := UInt64.ofNat (wideNat b.toNat)

/-- `packer::pack(double)`. -/
def packDouble (shrink : Bool) (b : UInt64) : Val :=
  if shrink then
    match decode64 b with
    | .fin z =>
      if z % one = 0 ∧ 0 ≤ z ∧ z / one < 2 ^ 64 then .uint (z / one).toNat
      else if z % one = 0 ∧ z < 0 ∧ -2 ^ 63 ≤ z / one then .nint (z / one)
      else .f64 b.toNat
    | _ => .f64 b.toNat
  else .f64 b.toNat

/-- `packer::pack(int64_t)`: numbers that are not negative have the unsigned forms. -/
def packInt (v : Int) : Val := if 0 ≤ v then .uint v.toNat else .nint v

/-- `to_msgpack_` of a value, msgpack_encoder.hpp:13-50.  Nothing is written for a 128-bit number. -/
def packV (shrink : Bool) : V → Bytes
  | .bool b => encode (.bool b)
  | .int t v => if t.signed then encode (packInt v) else encode (.uint v.toNat)
  | .float b => encode (packDouble shrink (wide b))
  | .double b => encode (packDouble shrink b)
  | .str s => encode (.str s)
  | .na => encode .nil
  | .big _ => []
  | .other _ => []

mutual
/-- `to_msgpack_` of a node, msgpack_encoder.hpp:52-71.  Nothing is written for a mark for deletion. -/
def pack (shrink : Bool) : Node → Bytes
  | .obj fs => encMapHdr fs.length ++ packFields shrink fs
  | .arr xs => encArrHdr xs.length ++ packItems shrink xs
  | .leaf v => packV shrink v
  | .del => []
/-- The fields, msgpack_encoder.hpp:57-60. -/
def packFields (shrink : Bool) : List (Bytes × Node) → Bytes
  | [] => []
  | (k, n) :: fs => encode (.str k) ++ pack shrink n ++ packFields shrink fs
/-- The elements, msgpack_encoder.hpp:64-66. -/
def packItems (shrink : Bool) : List Node → Bytes
  | [] => []
  | n :: xs => pack shrink n ++ packItems shrink xs
end

/-- A primitive object as a value of the tape: `build_primitive`, msgpack_encoder.cpp:4-28; a float was widened by the
library when it was unpacked. -/
def primitive : Val → V
  | .nil => .na
  | .bool b => .bool b
  | .uint n => .int .u64 n
  | .nint i => .int .i64 i
  | .f32 b => .double (wide (UInt32.ofNat b))
  | .f64 b => .double (UInt64.ofNat b)
  | .str s => .str s
  | .arr _ => .na
  | .map _ => .na

/-- The text of a key when it is hashed, json_object.cpp:14-16: a value that is no string throws, a container has no
value. -/
def keyText : Val → Res Bytes
  | .arr _ => .ub
  | .map _ => .ub
  | v => (Query.put (primitive v)).bind V.getStr

/-- `map_.emplace`, json_object.cpp:61-63: the first of two equal names stays. -/
def emplaceN (k : Bytes) (n : Node) (fs : List (Bytes × Node)) : List (Bytes × Node) :=
  match lookN fs k with
  | some _ => fs
  | none => fs ++ [(k, n)]

mutual
/-- `build_index`, msgpack_encoder.cpp:30-56. -/
def unpackNode : Val → Res Node
  | .map kvs => (unpackFields [] none kvs).bind fun fs => .ok (.obj fs)
  | .arr vs => (unpackItems vs).bind fun xs => .ok (.arr xs)
  | v => (Query.put (primitive v)).bind fun x => .ok (.leaf x)
/-- The loop over keys and values, msgpack_encoder.cpp:38-41 and 63-66; `key` is the text of the key just read. -/
def unpackFields (acc : List (Bytes × Node)) (key : Option Bytes) : List Val → Res (List (Bytes × Node))
  | [] => .ok acc
  | v :: r => match key with
    | none => (keyText v).bind fun k => unpackFields acc (some k) r
    | some k => (unpackNode v).bind fun n => unpackFields (emplaceN k n acc) none r
/-- The loop over elements, msgpack_encoder.cpp:45-48. -/
def unpackItems : List Val → Res (List Node)
  | [] => .ok []
  | v :: r => (unpackNode v).bind fun n => (unpackItems r).bind fun xs => .ok (n :: xs)
end

/-- `msgpack_decoder_t::to_document`, msgpack_encoder.cpp:58-68, does not look at the type: an object that is no map is
read as one. -/
def decodeDocument : Val → Res Node
  | .map kvs => (unpackFields [] none kvs).bind fun fs => .ok (.obj fs)
  | _ => .ub

/-- The documents of an array, msgpack_encoder.hpp:100-102. -/
def toDocumentsLoop : List Val → Res (List Node)
  | [] => .ok []
  | v :: r => (decodeDocument v).bind fun n => (toDocumentsLoop r).bind fun ns => .ok (n :: ns)

/-- `to_document`, msgpack_encoder.hpp:86-91. -/
def toDocument : Val → Res Node
  | .map kvs => decodeDocument (.map kvs)
  | _ => .throws

/-- `to_documents`, msgpack_encoder.hpp:93-104. -/
def toDocuments : Val → Res (List Node)
  | .arr vs => toDocumentsLoop vs
  | _ => .throws

/-- `msgpack::unpack` and `to_document` of a buffer; `unpack` throws for what is no object. -/
def ofBytes (bs : Bytes) : Res Node :=
  match unpack bs with
  | none => .throws
  | some v => toDocument v

/-- `msgpack::unpack` and `to_documents`. -/
def allOfBytes (bs : Bytes) : Res (List Node) :=
  match unpack bs with
  | none => .throws
  | some v => toDocuments v

/-- Packing a vector of documents: an array of them (msgpack's adaptor for vectors). -/
def packAll (shrink : Bool) (ds : List Node) : Bytes := encArrHdr ds.length ++ packItems shrink ds

/-- `is_equals_value`, document.cpp:531-571, but for numbers of floating point (there by a tolerance): the same type and
the same value. -/
def equalsV (close32 : UInt32 → UInt32 → Bool) (close64 : UInt64 → UInt64 → Bool) : V → V → Bool
  | .int t v, .int u w => decide (t = u) && decide (v = w)
  | .big v, .big w => decide (v = w)
  | .float a, .float b => close32 a b
  | .double a, .double b => close64 a b
  | .str s, .str r => decide (s = r)
  | .bool a, .bool b => decide (a = b)
  | .na, .na => true
  | _, _ => false

mutual
/-- `is_equals_documents`, document.cpp:573-575, json_trie_node.cpp:133-148, json_object.cpp:110-121,
json_array.cpp:72-83. -/
def equalsN (c32 : UInt32 → UInt32 → Bool) (c64 : UInt64 → UInt64 → Bool) : Node → Node → Bool
  | .obj fs, m => match m with
    | .obj gs => decide (fs.length = gs.length) && equalsFields c32 c64 gs fs
    | _ => false
  | .arr xs, m => match m with
    | .arr ys => equalsItems c32 c64 xs ys
    | _ => false
  | .leaf v, m => match m with
    | .leaf w => equalsV c32 c64 v w
    | _ => false
  | .del, m => match m with
    | .del => true
    | _ => false
def equalsFields (c32 : UInt32 → UInt32 → Bool) (c64 : UInt64 → UInt64 → Bool) (gs : List (Bytes × Node)) : List (Bytes × Node) → Bool
  | [] => true
  | (k, n) :: fs => match lookN gs k with
    | none => false
    | some m => equalsN c32 c64 n m && equalsFields c32 c64 gs fs
def equalsItems (c32 : UInt32 → UInt32 → Bool) (c64 : UInt64 → UInt64 → Bool) : List Node → List Node → Bool
  | [], [] => true
  | n :: xs, m :: ys => equalsN c32 c64 n m && equalsItems c32 c64 xs ys
  | _, _ => false
end

end Verif.DocPack
