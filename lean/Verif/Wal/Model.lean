import Verif.Base.Res
import Verif.Msgpack.Model
import Verif.Wal.Crc
/-!
Model of the write-ahead log: services/wal/wal.cpp, services/wal/dto.cpp,
services/wal/base.hpp, services/wal/record.hpp, and of the positioned read in
core/file/local_file_system.cpp.

The log file is a byte string. Offsets are unbounded naturals (`size_t` overflow, which needs a
file of 2^64 bytes, is not modelled). Plan nodes and parameters are the msgpack objects their
`serialize` functions produce; turning these objects back into plan nodes is modelled in
`Verif.PlanSerial`, not here.
-/
namespace Verif.Wal
open Verif

/-- `read(handle, buffer, n, location)`, core/file/local_file_system.cpp:392-404: `pread` in a
loop. The loop advances the buffer and decreases the count but does NOT advance `location`, so
after a short read (end of file) it reads the same bytes again. Reading stops when nothing is
left at `location`; the rest of the buffer keeps its old contents, which are zeros because the
only callers resize a fresh string first (services/wal/wal.cpp:155-158). `pread` on a regular
file is short only at end of file. -/
def preadLoop (avail : Bytes) : Nat → Nat → Bytes
  | 0, n => List.replicate n 0
  | fuel + 1, n =>
    if n = 0 then []
    else
      let got := avail.take n
      if got = [] then List.replicate n 0
      else got ++ preadLoop avail fuel (n - got.length)

/-- `read_buffer`, services/wal/wal.cpp:155-158. Each successful `pread` delivers at least one
byte, so `n` rounds suffice. -/
def readBuffer (file : Bytes) (start n : Nat) : Bytes := preadLoop (file.drop start) n n

/-- `read_size` and `read_size_impl`, services/wal/wal.cpp:169-182: two bytes, big-endian. -/
def readSize (file : Bytes) (start : Nat) : Nat := beNat (readBuffer file start 2)

/-- `next_index`, services/wal/wal.cpp:32. -/
def nextIndex (index size : Nat) : Nat := index + size + 2 + 4

/-- A logged operation: `data` (plan node) and `params`, as serialised objects. -/
structure Op where
  node : Msgpack.Val
  params : Msgpack.Val

/-- The payload built by `pack(storage, last_crc32, id, data, params)`,
services/wal/dto.cpp:61-73. -/
def payload (lastCrc id : Nat) (op : Op) : Bytes :=
  Msgpack.encode (.arr [.uint lastCrc, .uint id, op.node, op.params])

/-- `pack(storage, input, data_size)`, services/wal/dto.cpp:53-59: 16-bit size (high bits of the
length lost by `size_tt(data_size)`), payload, checksum. -/
def packBytes (pl : Bytes) : Bytes :=
  beBytes 2 pl.length ++ pl ++ beBytes 4 (Crc.crc32c pl)

/-- What the reader makes of a record: `record_t`, services/wal/record.hpp:9-18. -/
inductive Entry where
  /-- checksum correct: `last_crc32`, `id`, node and parameters -/
  | op (lastCrc id : Nat) (op : Op)
  /-- checksum wrong: `data == nullptr`, `id` and `last_crc32` uninitialised, but
  `is_valid()` (size > 0) is true -/
  | null
  
/-- `unpack_wal_id`, services/wal/dto.cpp:92-97: unpack, then element 1 of the array, without
checking that the object is an array of at least two elements (`ub` otherwise); `as<id_t>()`
throws unless it is a non-negative integer. -/
def unpackWalId (bs : Bytes) : Res Nat :=
  match Msgpack.unpack bs with
  | none => .throws
  | some (.arr (_ :: .uint n :: _)) => .ok n
  | some (.arr (_ :: _ :: _)) => .throws
  | some _ => .ub

/-- `read_id`, services/wal/wal.cpp:380-389. -/
def readId (file : Bytes) (start : Nat) : Res Nat :=
  let size := readSize file start
  if 0 < size then unpackWalId (readBuffer file (start + 2) size) else .ok 0

/-- `read_record`, services/wal/wal.cpp:391-418. Returns the size field and the entry
(`none` when the size is 0). The deserializer reads union members without checking tags:
`ub` when the object has another shape. -/
def readRecord (file : Bytes) (start : Nat) : Res (Nat × Option Entry) :=
  let size := readSize file start
  if 0 < size then
    let output := readBuffer file (start + 2) (size + 4)
    let crc := beNat ((output.drop size).take 4)
    if crc = Crc.crc32c (output.take size) then
      match Msgpack.unpack output with
      | none => .throws
      | some (.arr (.uint c :: .uint i :: node :: params :: _)) =>
        .ok (size, some (.op (c % 2 ^ 32) i ⟨node, params⟩))
      | some _ => .ub
    else .ok (size, some .null)
  else .ok (size, none)

/-- The `do … while (is_valid())` loop of `load` followed by dropping the last (invalid)
record, services/wal/wal.cpp:197-202. -/
def readAll (file : Bytes) : Nat → Nat → Res (List Entry)
  | 0, _ => .diverges
  | fuel + 1, index =>
    match readRecord file index with
    | .ok (_, none) => .ok []
    | .ok (size, some e) =>
      match readAll file fuel (nextIndex index size) with
      | .ok es => .ok (e :: es)
      | r => r
    | .throws => .throws
    | .ub => .ub
    | .diverges => .diverges

/-- The `for` loop of `find_start_record`, services/wal/wal.cpp:367-374; `n` rounds left.
`none` = `return false`. -/
def skipRecords (file : Bytes) : Nat → Nat → Option Nat
  | 0, index => some index
  | n + 1, index =>
    let size := readSize file index
    if 0 < size then skipRecords file n (nextIndex index size) else none

/-- `find_start_record`, services/wal/wal.cpp:363-378. -/
def findStartRecord (file : Bytes) (walId : Nat) : Res (Option Nat) := do
  let firstId ← readId file 0
  if 0 < firstId then
    match skipRecords file (walId - firstId) 0 with
    | none => .ok none
    | some index =>
      let id ← readId file index
      .ok (if walId = id then some index else none)
  else .ok none

/-- `load`, services/wal/wal.cpp:191-205: everything after `walId`. Every round of the loop
advances by at least 6 bytes, so the file length is enough fuel. -/
def load (file : Bytes) (walId : Nat) : Res (List Entry) := do
  match ← findStartRecord file ((walId + 1) % 2 ^ 64) with
  | none => .ok []
  | some index => readAll file (file.length + 1) index

/-- The loop of `init_id`, services/wal/wal.cpp:353-361; `cur` is `id_`. -/
def initIdLoop (file : Bytes) : Nat → Nat → Nat → Res Nat
  | 0, _, _ => .diverges
  | fuel + 1, index, cur =>
    match readId file index with
    | .ok id =>
      if 0 < id then initIdLoop file fuel (nextIndex index (readSize file index)) id else .ok cur
    | .throws => .throws
    | .ub => .ub
    | .diverges => .diverges

/-- An open log: file contents, `id_` and `last_crc32_` (services/wal/wal.hpp:105-106). -/
structure Wal where
  file : Bytes
  id : Nat
  lastCrc : Nat

/-- Constructor, services/wal/wal.cpp:78-86: seek to the end and `init_id`; `last_crc32_`
starts at 0 (wal.hpp:106). -/
def openLog (file : Bytes) : Res Wal := do
  let id ← initIdLoop file (file.length + 1) 0 0
  .ok ⟨file, id, 0⟩

/-- The bytes `write_data_` is about to write, services/wal/wal.cpp:346-350 (id already
incremented, wrapping as `uint64_t`). -/
def nextRecord (w : Wal) (op : Op) : Bytes :=
  packBytes (payload w.lastCrc ((w.id + 1) % 2 ^ 64) op)

/-- `write_data_`, services/wal/wal.cpp:346-351. -/
def append (w : Wal) (op : Op) : Wal :=
  { file := w.file ++ nextRecord w op
    id := (w.id + 1) % 2 ^ 64
    lastCrc := Crc.crc32c (payload w.lastCrc ((w.id + 1) % 2 ^ 64) op) }

/-- The life of a log: operations are logged, and the process may be stopped (between
operations) and restarted any number of times. -/
inductive Event where
  | log (op : Op)
  | reopen

/-- One event. -/
def stepEvent (w : Wal) : Event → Res Wal
  | .log op => .ok (append w op)
  | .reopen => openLog w.file

/-- A whole history. -/
def runEvents (w : Wal) : List Event → Res Wal
  | [] => .ok w
  | e :: es =>
    match stepEvent w e with
    | .ok w' => runEvents w' es
    | .throws => .throws
    | .ub => .ub
    | .diverges => .diverges

end Verif.Wal
