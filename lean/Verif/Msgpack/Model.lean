import Verif.Base.Bytes
/-!
Model of the msgpack wire format as msgpack-c implements it: `msgpack::packer` (used by
components/serialization/serializer.cpp:232-312 `msgpack_serializer_t`, and by
components/document/msgpack/msgpack_encoder.cpp) and `msgpack::unpack` (used by
services/wal/dto.cpp:92-97, components/serialization/deserializer.cpp:193-197).
The library itself is not part of /repo; its wire format is taken from the msgpack
specification. Simplifications: floats are kept as raw bits; the kinds `bin` and `ext`,
which the code never writes, are rejected by the decoder.
-/
namespace Verif.Msgpack
open Verif

/-- A msgpack object (`msgpack::object`). A map is kept as the flat list
key₀, value₀, key₁, value₁, … . -/
inductive Val where
  | nil
  | bool (b : Bool)
  | uint (n : Nat)
  | nint (i : Int)
  | f32 (bits : Nat)
  | f64 (bits : Nat)
  | str (s : Bytes)
  | arr (vs : List Val)
  | map (kvs : List Val)

/-- One tag byte. -/
def tag (n : Nat) : Bytes := [UInt8.ofNat n]

/-- `packer::pack_imp_uint64`: the shortest unsigned form
(serializer.cpp:242 `append(key, uint64_t)`). -/
def encUInt (n : Nat) : Bytes :=
  if n < 128 then tag n
  else if n < 256 then tag 0xcc ++ beBytes 1 n
  else if n < 65536 then tag 0xcd ++ beBytes 2 n
  else if n < 4294967296 then tag 0xce ++ beBytes 4 n
  else tag 0xcf ++ beBytes 8 n

/-- `packer::pack_imp_int64` for negative values, in two's complement. Non-negative signed
values are packed with the unsigned forms (`encInt`). -/
def encNInt (i : Int) : Bytes :=
  if -32 ≤ i then tag (256 + i).toNat
  else if -128 ≤ i then tag 0xd0 ++ beBytes 1 (256 + i).toNat
  else if -32768 ≤ i then tag 0xd1 ++ beBytes 2 (65536 + i).toNat
  else if -2147483648 ≤ i then tag 0xd2 ++ beBytes 4 (4294967296 + i).toNat
  else tag 0xd3 ++ beBytes 8 (18446744073709551616 + i).toNat

/-- `packer::pack_str` header. -/
def encStrHdr (n : Nat) : Bytes :=
  if n < 32 then tag (0xa0 + n)
  else if n < 256 then tag 0xd9 ++ beBytes 1 n
  else if n < 65536 then tag 0xda ++ beBytes 2 n
  else tag 0xdb ++ beBytes 4 n

/-- `packer::pack_array` header (serializer.cpp:234 `start_array`). -/
def encArrHdr (n : Nat) : Bytes :=
  if n < 16 then tag (0x90 + n)
  else if n < 65536 then tag 0xdc ++ beBytes 2 n
  else tag 0xdd ++ beBytes 4 n

/-- `packer::pack_map` header. -/
def encMapHdr (n : Nat) : Bytes :=
  if n < 16 then tag (0x80 + n)
  else if n < 65536 then tag 0xde ++ beBytes 2 n
  else tag 0xdf ++ beBytes 4 n

mutual
/-- `msgpack::packer::pack` on an object tree. -/
def encode : Val → Bytes
  | .nil => tag 0xc0
  | .bool b => tag (if b then 0xc3 else 0xc2)
  | .uint n => encUInt n
  | .nint i => encNInt i
  | .f32 b => tag 0xca ++ beBytes 4 b
  | .f64 b => tag 0xcb ++ beBytes 8 b
  | .str s => encStrHdr s.length ++ s
  | .arr vs => encArrHdr vs.length ++ encodeList vs
  | .map kvs => encMapHdr (kvs.length / 2) ++ encodeList kvs
/-- The elements of a container, one after the other. -/
def encodeList : List Val → Bytes
  | [] => []
  | v :: vs => encode v ++ encodeList vs
end

/-- Read a `k`-byte big-endian number. -/
def readBE (k : Nat) (bs : Bytes) : Option (Nat × Bytes) :=
  (takeN k bs).map fun (a, r) => (beNat a, r)

/-- Two's complement reading of a `k`-byte number; non-negative results are reported as
POSITIVE_INTEGER, negative as NEGATIVE_INTEGER, as msgpack-c's unpacker does. -/
def ofSigned (k n : Nat) : Val :=
  if n < 256 ^ k / 2 then .uint n else .nint ((n : Int) - 256 ^ k)

/-- Read `n` objects with the object reader `dec`. -/
def decodeN (dec : Bytes → Option (Val × Bytes)) : Nat → Bytes → Option (List Val × Bytes)
  | 0, bs => some ([], bs)
  | n + 1, bs =>
    match dec bs with
    | none => none
    | some (v, r) =>
      match decodeN dec n r with
      | none => none
      | some (vs, r') => some (v :: vs, r')

/-- One object from the front of `bs`; `none` stands for the exceptions of
`msgpack::unpack` (insufficient_bytes, parse_error). `fuel` bounds the nesting depth. -/
def decode : Nat → Bytes → Option (Val × Bytes)
  | 0, _ => none
  | _ + 1, [] => none
  | f + 1, b :: r =>
    let t := b.toNat
    let str (p : Nat × Bytes) : Option (Val × Bytes) := (takeN p.1 p.2).map fun (s, r) => (.str s, r)
    let arr (p : Nat × Bytes) : Option (Val × Bytes) := (decodeN (decode f) p.1 p.2).map fun (vs, r) => (.arr vs, r)
    let map (p : Nat × Bytes) : Option (Val × Bytes) := (decodeN (decode f) (2 * p.1) p.2).map fun (vs, r) => (.map vs, r)
    if t < 0x80 then some (.uint t, r)
    else if t < 0x90 then map (t - 0x80, r)
    else if t < 0xa0 then arr (t - 0x90, r)
    else if t < 0xc0 then str (t - 0xa0, r)
    else if t = 0xc0 then some (.nil, r)
    else if t = 0xc2 then some (.bool false, r)
    else if t = 0xc3 then some (.bool true, r)
    else if t = 0xca then (readBE 4 r).map fun (n, r) => (.f32 n, r)
    else if t = 0xcb then (readBE 8 r).map fun (n, r) => (.f64 n, r)
    else if t = 0xcc then (readBE 1 r).map fun (n, r) => (.uint n, r)
    else if t = 0xcd then (readBE 2 r).map fun (n, r) => (.uint n, r)
    else if t = 0xce then (readBE 4 r).map fun (n, r) => (.uint n, r)
    else if t = 0xcf then (readBE 8 r).map fun (n, r) => (.uint n, r)
    else if t = 0xd0 then (readBE 1 r).map fun (n, r) => (ofSigned 1 n, r)
    else if t = 0xd1 then (readBE 2 r).map fun (n, r) => (ofSigned 2 n, r)
    else if t = 0xd2 then (readBE 4 r).map fun (n, r) => (ofSigned 4 n, r)
    else if t = 0xd3 then (readBE 8 r).map fun (n, r) => (ofSigned 8 n, r)
    else if t = 0xd9 then (readBE 1 r).bind str
    else if t = 0xda then (readBE 2 r).bind str
    else if t = 0xdb then (readBE 4 r).bind str
    else if t = 0xdc then (readBE 2 r).bind arr
    else if t = 0xdd then (readBE 4 r).bind arr
    else if t = 0xde then (readBE 2 r).bind map
    else if t = 0xdf then (readBE 4 r).bind map
    else if 0xe0 ≤ t then some (.nint ((t : Int) - 256), r)
    else none

/-- `msgpack::unpack(data, len)`: the first object of the buffer, trailing bytes ignored.
Every nesting level consumes a byte, so the buffer length is enough fuel. -/
def unpack (bs : Bytes) : Option Val := (decode (bs.length + 1) bs).map (·.1)

mutual
/-- Values the packer can be handed: 64-bit integers, 32-bit lengths. -/
def WF : Val → Prop
  | .nil => True
  | .bool _ => True
  | .uint n => n < 2 ^ 64
  | .nint i => -2 ^ 63 ≤ i ∧ i < 0
  | .f32 b => b < 2 ^ 32
  | .f64 b => b < 2 ^ 64
  | .str s => s.length < 2 ^ 32
  | .arr vs => vs.length < 2 ^ 32 ∧ WFList vs
  | .map kvs => kvs.length < 2 ^ 32 ∧ kvs.length % 2 = 0 ∧ WFList kvs
/-- All members well formed. -/
def WFList : List Val → Prop
  | [] => True
  | v :: vs => WF v ∧ WFList vs
end

end Verif.Msgpack
