import Verif.Text.Model
import Verif.Text.Boost
/-!
# The log id the disk notes in the file WAL_ID, for C114

`/repo/services/disk/disk.cpp:29-32, 137-143`, `/repo/services/wal/base.hpp:15-20`, `/repo/core/file/file_handle.cpp:68-80`.
The file system does what POSIX says and reports no errors (with an error `read_line` does not end, file_handle.cpp:72-73: this is
not modelled); a transfer is done in one call (C45 says what happens otherwise).
-/
namespace Verif.WalId

open Verif.Num Verif.PhysKey Verif.DocVal Verif.Text

/-- The file and the place the open handle reads on from.  `pwrite` and `ftruncate` do not move that place
(local_file_system.cpp:412-425, 466-472), `read` does (local_file_system.cpp:406-410). -/
structure File where
  /-- what is stored -/
  bytes : Bytes
  /-- how far the handle has read -/
  pos : Nat
  deriving DecidableEq

/-- `open_file` of WAL_ID with FILE_CREATE (disk.cpp:29-32): what is there is kept, reading starts at the beginning. -/
def File.open (b : Bytes) : File := ⟨b, 0⟩

/-- `file_handle_t::read_line`, file_handle.cpp:68-80, on what is left to read: the line and how many bytes were taken. -/
def line : Bytes → Bytes × Nat
  | [] => ([], 0)
  | c :: cs =>
    if c = 10 then ([], 1)
    else
      let r := line cs
      (if c = 13 then r.1 else c :: r.1, r.2 + 1)

/-- `isspace` of the C locale. -/
def isSpace (c : UInt8) : Bool := c == 32 || (9 ≤ c && c ≤ 13)

/-- The sign of the text `strtoull` reads: whether it is a minus, and the rest. -/
def sign : Bytes → Bool × Bytes
  | [] => (false, [])
  | c :: cs => if c = 45 then (true, cs) else if c = 43 then (false, cs) else (false, c :: cs)

/-- `std::strtoull(…, nullptr, 10)` of 64 bits. -/
def strtoull (s : Bytes) : Nat :=
  let t := sign (s.dropWhile isSpace)
  let n := natOf (t.2.takeWhile isDigit)
  if 2 ^ 64 ≤ n then 2 ^ 64 - 1 else if t.1 then (2 ^ 64 - n) % 2 ^ 64 else n

/-- `id_from_string`, wal/base.hpp:15-20. -/
def idFromString (s : Bytes) : Nat := if s.isEmpty then 0 else strtoull s

/-- `pwrite` of `b` at the start of the file: what is longer stays. -/
def over (old b : Bytes) : Bytes := b ++ old.drop b.length

/-- `disk_t::fix_wal_id`, disk.cpp:137-141; `std::to_string` is `showNat`. -/
def File.note (f : File) (id : Nat) : File :=
  let t := showNat id
  { f with bytes := (over f.bytes t).take t.length }

/-- `disk_t::wal_id`, disk.cpp:143, as `agent_disk_t::load` calls it (agent_disk.cpp:87). -/
def File.load (f : File) : Nat × File :=
  let r := line (f.bytes.drop f.pos)
  (idFromString r.1, { f with pos := f.pos + r.2 })

/-- The file if the process or the machine stops in `fix_wal_id` (disk.cpp:137-141) when `k` of the bytes of the text are
written, before the file is cut. -/
def File.stopped (f : File) (id k : Nat) : Bytes := over f.bytes ((showNat id).take k)

/-- What is done with the file. -/
inductive Op where
  /-- `fix_wal_id` -/
  | note (id : Nat)
  /-- `wal_id` -/
  | load
  /-- the file is closed and opened again, in a new `disk_t` (disk.cpp:20-32) -/
  | restart

/-- One operation: the file after it. -/
def step (f : File) : Op → File
  | .note id => f.note id
  | .load => f.load.2
  | .restart => .open f.bytes

/-- The operations one after the other. -/
def run (f : File) : List Op → File
  | [] => f
  | o :: os => run (step f o) os

end Verif.WalId
