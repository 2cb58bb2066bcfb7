import Verif.Base.Res
/-!
# Buffers for Arrow, for C121

`/repo/components/vector/arrow/arrow_buffer.hpp`.  `malloc` and `realloc` do not fail (the code does not look).  A byte never written is
`none`.  Moving a buffer is not modelled.
-/
namespace Verif.ABuf

open Verif

/-- `arrow_buffer_t`, arrow_buffer.hpp:109-111: the memory (its length is the capacity) and `count_`. -/
structure Buf where
  mem : List (Option UInt8)
  count : Nat
  deriving DecidableEq

/-- `arrow_buffer_t()`, arrow_buffer.hpp:16. -/
def new : Buf := ⟨[], 0⟩

/-- arrow_buffer.hpp:48-53. -/
def smear (x : Nat) : Nat :=
  let x := x ||| x >>> 1
  let x := x ||| x >>> 2
  let x := x ||| x >>> 4
  let x := x ||| x >>> 8
  let x := x ||| x >>> 16
  x ||| x >>> 32

/-- The new capacity, arrow_buffer.hpp:43-58, in 64 bits. -/
def capacity (n : Nat) : Res Nat :=
  if n < 1 then .ok 2
  else if (smear (n - 1) + 1) % 2 ^ 64 = 0 then .throws else .ok ((smear (n - 1) + 1) % 2 ^ 64)

/-- `reserve`, arrow_buffer.hpp:42-63, 100-107. -/
def Buf.reserve (b : Buf) (n : Nat) : Res Buf :=
  (capacity n).bind fun c =>
    if c ≤ b.mem.length then .ok b else .ok { b with mem := b.mem ++ List.replicate (c - b.mem.length) none }

/-- The loop of arrow_buffer.hpp:72-74: so many bytes from there on. -/
def fill (v : UInt8) : Nat → Nat → List (Option UInt8) → Res (List (Option UInt8))
  | 0, _, m => .ok m
  | k + 1, i, m => if i < m.length then fill v k (i + 1) (m.set i (some v)) else .ub

/-- `resize(bytes)`, arrow_buffer.hpp:65-68. -/
def Buf.resize (b : Buf) (n : Nat) : Res Buf := (b.reserve n).bind fun b => .ok { b with count := n }

/-- `resize(bytes, value)`, arrow_buffer.hpp:70-76. -/
def Buf.resizeFill (b : Buf) (n : Nat) (v : UInt8) : Res Buf :=
  (b.reserve n).bind fun b => (fill v (n - b.count) b.count b.mem).bind fun m => .ok ⟨m, n⟩

/-- `resize_validity`, arrow_buffer.hpp:94-97, in 64 bits. -/
def Buf.validity (b : Buf) (rows : Nat) : Res Buf := b.resizeFill ((rows + 7) % 2 ^ 64 / 8) 0xFF

/-- A byte written through `data()`, arrow_buffer.hpp:87-92. -/
def Buf.write (b : Buf) (i : Nat) (v : UInt8) : Res Buf :=
  if i < b.mem.length then .ok { b with mem := b.mem.set i (some v) } else .ub

/-- `push_back`, arrow_buffer.hpp:78-83, of a value of these bytes. -/
def Buf.push (b : Buf) (v : List UInt8) : Res Buf :=
  (b.reserve (v.length * (b.count + 1) % 2 ^ 64)).bind fun b =>
    if b.count * v.length + v.length ≤ b.mem.length then
      .ok ⟨b.mem.take (b.count * v.length) ++ v.map some ++ b.mem.drop (b.count * v.length + v.length), b.count + 1⟩
    else .ub

/-- What is done to a buffer. -/
inductive Op where
  | reserve (n : Nat)
  | resize (n : Nat)
  | resizeFill (n : Nat) (v : UInt8)
  | validity (rows : Nat)
  | write (i : Nat) (v : UInt8)

/-- One of them. -/
def step (b : Buf) : Op → Res Buf
  | .reserve n => b.reserve n
  | .resize n => b.resize n
  | .resizeFill n v => b.resizeFill n v
  | .validity rows => b.validity rows
  | .write i v => b.write i v

/-- One after the other. -/
def run : Buf → List Op → Res Buf
  | b, [] => .ok b
  | b, o :: os => (step b o).bind fun b => run b os

/-- Values pushed one after the other. -/
def pushAll : Buf → List (List UInt8) → Res Buf
  | b, [] => .ok b
  | b, v :: vs => (b.push v).bind fun b => pushAll b vs

end Verif.ABuf
