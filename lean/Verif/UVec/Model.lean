import Verif.Base.Res
/-!
# Buffers and vectors of plain values, for C119

`/repo/core/buffer.hpp` and `/repo/core/uvector.hpp`.  A value of type `T` is stored as `enc v`, always `s` bytes.  Allocation does not
fail.  A byte that was never written is `none`.
-/
namespace Verif.UVec

open Verif

/-- `buffer`, buffer.hpp:115-118: the memory (its length is the capacity; the pointer is null if it is empty, buffer.hpp:123) and the
size. -/
structure Buf where
  mem : List (Option UInt8)
  size : Nat
  deriving DecidableEq

/-- `buffer(mr, size)`, buffer.hpp:22-25, 120-124. -/
def new (n : Nat) : Buf := ⟨List.replicate n none, n⟩

/-- `std::memcpy` of `n` bytes between whole blocks of memory: undefined if one of the pointers is null, also for no bytes. -/
def memcpy (dst src : List (Option UInt8)) (n : Nat) : Res (List (Option UInt8)) :=
  if dst = [] ∨ src = [] ∨ dst.length < n ∨ src.length < n then .ub else .ok (src.take n ++ dst.drop n)

/-- `buffer::reserve`, buffer.hpp:67-78. -/
def Buf.reserve (b : Buf) (n : Nat) : Res Buf :=
  if b.mem.length < n then (memcpy (new n).mem b.mem b.size).bind fun m => .ok ⟨m, b.size⟩ else .ok b

/-- `buffer::resize`, buffer.hpp:80-88. -/
def Buf.resize (b : Buf) (n : Nat) : Res Buf :=
  if n ≤ b.mem.length then .ok { b with size := n } else (memcpy (new n).mem b.mem b.size).bind fun m => .ok ⟨m, n⟩

/-- `buffer::shrink_to_fit`, buffer.hpp:90-95, with the copying constructor, buffer.hpp:27-34, 135-140, which copies nothing if there
is nothing. -/
def Buf.shrink (b : Buf) : Res Buf :=
  if b.size ≠ b.mem.length then
    if 0 < b.size then (memcpy (new b.size).mem b.mem b.size).bind fun m => .ok ⟨m, b.size⟩ else .ok (new b.size)
  else .ok b

/-- `elements_to_bytes`, uvector.hpp:109-111: 64 bits. -/
def bytes (s n : Nat) : Nat := n * s % 2 ^ 64

/-- `uvector::size`, uvector.hpp:95, 113-115. -/
def Buf.count (b : Buf) (s : Nat) : Nat := b.size / s

/-- Bytes written at a place. -/
def putAt (m : List (Option UInt8)) (at_ : Nat) (bs : List UInt8) : List (Option UInt8) :=
  m.take at_ ++ bs.map some ++ m.drop (at_ + bs.length)

/-- What is stored: the type's size, its bytes and which values compare equal to zero. -/
structure Elem (T : Type) where
  s : Nat
  enc : T → List UInt8
  isZero : T → Bool

/-- `set_element` with `set_element_to_zero`, uvector.hpp:51-72: a value equal to zero is written as zero bytes. -/
def set {T : Type} (e : Elem T) (b : Buf) (i : Nat) (v : T) : Res Buf :=
  if i < b.count e.s then
    .ok { b with mem := putAt b.mem (i * e.s) (if e.isZero v then List.replicate e.s 0 else e.enc v) }
  else .throws

/-- `element`, uvector.hpp:74-79: the bytes of the value. -/
def get {T : Type} (e : Elem T) (b : Buf) (i : Nat) : Res (List (Option UInt8)) :=
  if i < b.count e.s then .ok ((b.mem.drop (i * e.s)).take e.s) else .throws

/-- What can be done with a vector. -/
inductive Op (T : Type) where
  | reserve (n : Nat)
  | resize (n : Nat)
  | shrink
  | set (i : Nat) (v : T)

/-- uvector.hpp:56, 82-84. -/
def step {T : Type} (e : Elem T) (b : Buf) : Op T → Res Buf
  | .reserve n => b.reserve (bytes e.s n)
  | .resize n => b.resize (bytes e.s n)
  | .shrink => b.shrink
  | .set i v => UVec.set e b i v

/-- One after the other. -/
def run {T : Type} (e : Elem T) (b : Buf) : List (Op T) → Res Buf
  | [] => .ok b
  | o :: os => (step e b o).bind fun b => run e b os

/-- `uvector(resource, size)`, uvector.hpp:35-36. -/
def make {T : Type} (e : Elem T) (n : Nat) : Buf := new (bytes e.s n)

/-- `make_uvector`, uvector.hpp:124-135: of an empty range the first element is asked for all the same. -/
def fromList {T : Type} (e : Elem T) (xs : List T) : Res Buf :=
  match xs with
  | [] => .ub
  | x :: xs =>
    (memcpy (make e (xs.length + 1)).mem (((x :: xs).flatMap e.enc).map some) ((xs.length + 1) * e.s)).bind fun m =>
    .ok ⟨m, (make e (xs.length + 1)).size⟩

end Verif.UVec
