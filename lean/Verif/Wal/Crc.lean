import Verif.Base.Bytes
/-!
CRC-32C as computed by `absl::ComputeCrc32c` (services/wal/dto.cpp:54, services/wal/wal.cpp:399;
also core/b_plus_tree/block.cpp checksum functions). The library is not in /repo; this is the
standard bit-serial definition (reflected polynomial 0x82F63B78, initial value and final xor
0xFFFFFFFF).
-/
namespace Verif.Crc
open Verif

abbrev Reg := BitVec 32

/-- Reflected Castagnoli polynomial. -/
def poly : Reg := 0x82F63B78#32

/-- One shift of the register with zero input. -/
def shift (s : Reg) : Reg := (s >>> 1) ^^^ (if s.getLsbD 0 then poly else 0#32)

/-- A message bit as a register value. -/
def ofBit (b : Bool) : Reg := if b then 1#32 else 0#32

/-- Consume one message bit. -/
def step (s : Reg) (b : Bool) : Reg := shift (s ^^^ ofBit b)

/-- Consume a bit string. -/
def feed (s : Reg) (bits : List Bool) : Reg := bits.foldl step s

/-- Bits of a byte, least significant first. -/
def byteBits (b : UInt8) : List Bool :=
  [b.toNat.testBit 0, b.toNat.testBit 1, b.toNat.testBit 2, b.toNat.testBit 3,
   b.toNat.testBit 4, b.toNat.testBit 5, b.toNat.testBit 6, b.toNat.testBit 7]

/-- All bits of a message in transmission order. -/
def bitsOf (bs : Bytes) : List Bool := bs.flatMap byteBits

/-- `absl::ComputeCrc32c`. -/
def crc32c (bs : Bytes) : Nat := (feed 0xFFFFFFFF#32 (bitsOf bs) ^^^ 0xFFFFFFFF#32).toNat

/-- The published check value of CRC-32C for the ASCII string "123456789". -/
example : crc32c [0x31, 0x32, 0x33, 0x34, 0x35, 0x36, 0x37, 0x38, 0x39] = 0xE3069283 := by decide +kernel

end Verif.Crc
