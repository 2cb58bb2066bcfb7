import Verif.DocVal.Model
/-!
Model of a segment of a text column, components/table/column_segment.cpp: the bytes of its block, with a header, the
offsets growing from the front and the texts growing from the end.

Simplifications: assertions are compiled out; the blocks of long texts are numbered by the segment; a segment is as long as
its block (column_data.cpp:368-379, for rows that are not those of a transaction); pinning is left out.
-/
namespace Verif.TextSeg

open Verif.DocVal

/-- The constants, column_segment.cpp:14-15, 33-41. -/
def headerSize : Nat := 20
def markerSize : Nat := 8
def defaultLimit : Nat := 4096

/-- `string_block_limit`, column_segment.cpp:364-366. -/
def limit (block : Nat) : Nat := min (block / 4 / 8 * 8) defaultLimit

/-- `string_block_t`, column_state.hpp: a block of long texts, how much of it is used. -/
structure Over where
  used : Nat
  data : Bytes

/-- `column_segment_t` of texts: the memory of its block, `count`, and the blocks of long texts, the head last. -/
structure Seg where
  mem : Bytes
  count : Nat
  over : List Over

/-! ### memory -/

/-- Four bytes at an address as an unsigned number; beyond the block it is undefined. -/
def get32 (m : Bytes) (i : Nat) : Res Nat := rd32 (m.drop i)

/-- Bytes written to an address. -/
def put (m : Bytes) (i : Nat) (bs : Bytes) : Res Bytes :=
  if m.length < i + bs.length then .ub else .ok (m.take i ++ bs ++ m.drop (i + bs.length))

/-- Bytes at an address. -/
def get (m : Bytes) (i n : Nat) : Res Bytes := if m.length < i + n then .ub else .ok ((m.drop i).take n)

/-- A signed 32-bit number from an unsigned one. -/
def signed (n : Nat) : Int := if n < 2 ^ 31 then n else (n : Int) - 2 ^ 32

/-- `ptr - n`: before the block it is undefined. -/
def back (i n : Nat) : Res Nat := if i < n then .ub else .ok (i - n)

/-- The address of an element of `result_data`, column_segment.cpp:218, 381. -/
def slot (i : Nat) : Nat := headerSize + 4 * i

/-- The constructor of the segment, column_segment.cpp:621-629; the rest of the memory is as allocated. -/
def create (mem : Bytes) : Res Seg :=
  (put mem 0 (le32 0)).bind fun m => (put m 4 (le32 (mem.length % 2 ^ 32))).bind fun m => .ok ⟨m, 0, []⟩

/-- `remaining_space`, column_segment.cpp:171-177: a difference of unsigned numbers. -/
def remaining (s : Seg) : Res Nat :=
  (get32 s.mem 0).bind fun size => .ok ((s.mem.length + 2 ^ 64 - (size + s.count * 4 + headerSize)) % 2 ^ 64)

/-- Whether the head has room, column_segment.cpp:139. -/
def hasRoom (over : List Over) (total : Nat) : Bool :=
  match over.getLast? with
  | none => false
  | some h => decide (h.used + total < h.data.length)

/-- `write_string_memory`, column_segment.cpp:129-162: the blocks after it, the number of the block and the offset. -/
def writeOver (block : Nat) (over : List Over) (t : Bytes) : Res (List Over × Nat × Nat) :=
  let total := (t.length + 4) % 2 ^ 32
  let over' := if hasRoom over total then over else over ++ [⟨0, List.replicate (max total block) 0⟩]
  match over'.getLast? with
  | none => .ub
  | some h => (put h.data h.used (le32 (t.length % 2 ^ 32))).bind fun d => (put d (h.used + 4) t).bind fun d =>
    .ok (over'.dropLast ++ [⟨h.used + total, d⟩], over'.length - 1, h.used)

/-- One round of the loop of `string_append`, column_segment.cpp:387-441, for the element to be written to row `row`
with `rem` bytes left: `none` if it does not fit. -/
def appendOne (s : Seg) (row rem : Nat) (cell : Option Bytes) : Res (Option (Seg × Nat)) :=
  if rem < 4 then .ok none
  else match cell with
    | none =>
      if 0 < row then
        (get s.mem (slot (row - 1)) 4).bind fun o => (put s.mem (slot row) o).bind fun m => .ok (some ({ s with mem := m }, rem - 4))
      else (put s.mem (slot row) (le32 0)).bind fun m => .ok (some ({ s with mem := m }, rem - 4))
    | some t =>
      (get32 s.mem 4).bind fun e =>
        if limit s.mem.length ≤ t.length then
          if rem - 4 < markerSize then .ok none
          else (writeOver s.mem.length s.over t).bind fun w => (get32 s.mem 0).bind fun size =>
            let size' := (size + markerSize) % 2 ^ 32
            (put s.mem 0 (le32 size')).bind fun m => (back e size').bind fun pos =>
            (put m pos (le32 w.2.1 ++ le32 w.2.2)).bind fun m =>
            (put m (slot row) (le32 ((-(size' : Int)) % 2 ^ 32).toNat)).bind fun m =>
            .ok (some ({ s with mem := m, over := w.1 }, rem - 4 - markerSize))
        else
          if rem - 4 < t.length then .ok none
          else (get32 s.mem 0).bind fun size =>
            let size' := (size + t.length) % 2 ^ 32
            (put s.mem 0 (le32 size')).bind fun m => (back e size').bind fun pos =>
            (put m pos t).bind fun m => (put m (slot row) (le32 size')).bind fun m =>
            .ok (some ({ s with mem := m }, rem - 4 - t.length))

/-- The loop, column_segment.cpp:387-443: `i` elements were written; the count is changed at the end. -/
def appendLoop (base : Nat) : Seg → Nat → Nat → List (Option Bytes) → Res (Seg × Nat)
  | s, i, _, [] => .ok ({ s with count := s.count + i }, i)
  | s, i, rem, c :: cs => (appendOne s (base + i) rem c).bind fun
    | none => .ok ({ s with count := s.count + i }, i)
    | some (s', rem') => appendLoop base s' (i + 1) rem' cs

/-- `string_append`, column_segment.cpp:374-444: how many elements were written. -/
def append (s : Seg) (batch : List (Option Bytes)) : Res (Seg × Nat) :=
  (remaining s).bind fun rem => appendLoop s.count s 0 rem batch

/-! ### reading -/

/-- `std::abs` of an `int`. -/
def iabs (v : Int) : Res Int := if v = -2 ^ 31 then .ub else .ok v.natAbs

/-- `fetch_string_from_dict`, column_segment.cpp:118-127, with `fetch_string_location` (81-96) and `fetch_string`
(109-117; for offset 0 it returns the view of a text of length 0 that is gone, here the empty text).  A negative offset is that of a long text: `read_string_marker` (75-79) copies eight bytes to a variable of
four. -/
def fromDict (s : Seg) (off : Int) (len : Nat) : Res Bytes :=
  if off < 0 then .ub
  else if off = 0 then .ok []
  else (get32 s.mem 4).bind fun e => (back e off.toNat).bind fun pos => get s.mem pos len

/-- The length of the text between two offsets, column_segment.cpp:222-227, 590: unsigned, of 32 bits. -/
def lenOf (off prev : Int) : Res Nat :=
  (iabs off).bind fun a => (iabs prev).bind fun b => .ok ((a - b) % 2 ^ 32).toNat

/-- `string_fetch_row`, column_segment.cpp:209-229; `string_check_row` (252-272) compares the same text. -/
def fetch (s : Seg) (row : Nat) : Res Bytes :=
  (get32 s.mem (slot row)).bind fun o =>
    (if row = 0 then .ok 0 else (get32 s.mem (slot (row - 1))).bind fun p => .ok (signed p)).bind fun prev =>
      (lenOf (signed o) prev).bind fun len => fromDict s (signed o) len

/-- The loop of `string_scan_partial`, column_segment.cpp:589-594. -/
def scanLoop (s : Seg) (start : Nat) (prev : Int) : Nat → Res (List Bytes)
  | 0 => .ok []
  | n + 1 => (get32 s.mem (slot start)).bind fun o =>
    (lenOf (signed o) prev).bind fun len => (fromDict s (signed o) len).bind fun t =>
      (scanLoop s (start + 1) (signed o) n).bind fun ts => .ok (t :: ts)

/-- `string_scan_partial`, column_segment.cpp:575-595. -/
def scan (s : Seg) (start n : Nat) : Res (List Bytes) :=
  (if 0 < start then (get32 s.mem (slot (start - 1))).bind fun p => .ok (signed p) else .ok 0).bind fun prev => scanLoop s start prev n

/-- Batches appended one after the other: the segment then, and how much of each was written. -/
def appendAll : Seg → List (List (Option Bytes)) → Res (Seg × List Nat)
  | s, [] => .ok (s, [])
  | s, b :: bs => (append s b).bind fun r => (appendAll r.1 bs).bind fun q => .ok (q.1, r.2 :: q.2)

end Verif.TextSeg
