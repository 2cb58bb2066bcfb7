import Verif.Base.Bytes
/-!
Model of the positioned and sequential file transfers of core/file/local_file_system.cpp:392-441.

The operating system is a schedule: one number per system call, saying how many bytes it is
willing to move at most in that call (0 = error or end of file). A regular-file transfer never
moves more than was asked for, nor (reads) more than there is.
-/
namespace Verif.File
open Verif

/-- `pread(fd, buf, n, location)`: what one call delivers. -/
def pread (file : Bytes) (cap location n : Nat) : Bytes := (file.drop location).take (min cap n)

/-- Write `data` over `file` starting at `location` (a hole is filled with zeros). -/
def overwrite (file : Bytes) (location : Nat) (data : Bytes) : Bytes :=
  (file ++ List.replicate (location - file.length) 0).take location ++ data ++
    file.drop (location + data.length)

/-- `read(handle, buffer, nr_bytes, location)`, local_file_system.cpp:392-404. The result is
what was stored into the buffer, and the return value. `location` is not advanced between
calls. An exhausted schedule counts as an error. -/
def readAt (file : Bytes) (location : Nat) : List Nat → Nat → Bytes × Bool
  | [], n => ([], n = 0)
  | cap :: sched, n =>
    if n = 0 then ([], true)
    else
      let got := pread file cap location n
      if got = [] then ([], false)
      else
        let r := readAt file location sched (n - got.length)
        (got ++ r.1, r.2)

/-- `write(handle, buffer, nr_bytes, location)`, local_file_system.cpp:412-425: the loop advances
the buffer but not `location`. Result: the new file and the return value. -/
def writeAt (location : Nat) : List Nat → Bytes → Bytes → Bytes × Bool
  | [], file, data => (file, data = [])
  | cap :: sched, file, data =>
    if data = [] then (file, true)
    else
      let put := data.take cap
      if put = [] then (file, false)
      else writeAt location sched (overwrite file location put) (data.drop put.length)

/-- The sequential `write(handle, buffer, nr_bytes)`, local_file_system.cpp:427-441, on a file
opened for appending: the new file and the returned count (`none` for a non-positive result of
the last system call, which is what the code returns then). The 2^31-1 chunking is one of the
schedules (`cap ≤ 2^31-1`). -/
def writeSeq : List Nat → Bytes → Bytes → Nat → Bytes × Option Nat
  | [], file, data, done => (file, if data = [] then some done else none)
  | cap :: sched, file, data, done =>
    if data = [] then (file, some done)
    else
      let put := data.take cap
      if put = [] then (file, none)
      else writeSeq sched (file ++ put) (data.drop put.length) (done + put.length)

end Verif.File
