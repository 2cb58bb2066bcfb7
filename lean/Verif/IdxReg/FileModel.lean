import Verif.Base.Bytes
import Verif.Base.Res
/-!
# The file of indexes to the byte, for C115

`/repo/services/disk/manager_disk.cpp:92-96, 375-471` on `/repo/core/file/local_file_system.cpp:392-425`.  What the msgpack
serializer makes of an index is a parameter (`FileReal` puts in the plans of C44).  A positioned transfer is done in one call unless the file ends
(C45 says what happens otherwise).
-/
namespace Verif.IdxFile

open Verif

/-- Eight bytes of a `size_t`, least significant first. -/
def put8 (n : Nat) : Bytes := (beBytes 8 n).reverse

/-- The `size_t` in eight bytes. -/
def get8 (b : Bytes) : Nat := beNat b.reverse

/-- What the file is about: an index, its text and the parts that are looked at. -/
structure Codec (α : Type) where
  /-- `msgpack_serializer_t` of the node, manager_disk.cpp:377-381 -/
  enc : α → Bytes
  /-- `msgpack_deserializer_t` and `node_t::deserialize`, manager_disk.cpp:424-428 -/
  dec : Bytes → Res α
  /-- `index->name()` -/
  name : α → Bytes
  /-- `index->collection_name()` -/
  coll : α → Bytes

/-- A positioned read of `n` bytes into a buffer of zeros where only `avail` follow (local_file_system.cpp:392-404): each call
delivers what is there from the same place again, since `location` is not moved on; at the end of the file the buffer is left
as `resize` made it.  The first argument bounds the number of calls. -/
def fill (avail : Bytes) : Nat → Nat → Bytes
  | 0, n => List.replicate n 0
  | k + 1, n =>
    if avail = [] then List.replicate n 0
    else if n = 0 then []
    else avail.take n ++ fill avail k (n - (avail.take n).length)

/-- `read_indexes_impl("")`, manager_disk.cpp:406-437, from an offset on: `b` is the file from there.  A buffer longer than a
`std::string` can be is a `length_error`.  The first argument bounds the number of rounds. -/
def recs {α : Type} (c : Codec α) : Nat → Bytes → Res (List α)
  | 0, _ => .ok []
  | k + 1, b =>
    if b.length < 8 then .ok []
    else
      let n := get8 (b.take 8)
      if 2 ^ 63 - 1 ≤ n then .throws
      else
        (c.dec (fill (b.drop 8) n n)).bind fun i =>
        (recs c k ((b.drop 8).drop n)).bind fun is => .ok (i :: is)

/-- `read_indexes_impl`, manager_disk.cpp:406-437; each round moves on by eight bytes at least. -/
def read {α : Type} (c : Codec α) (b : Bytes) : Res (List α) := recs c (b.length + 1) b

/-- What `write_index_impl` writes for an index: its size and its text. -/
def frame {α : Type} (c : Codec α) (i : α) : Bytes := put8 (c.enc i).length ++ c.enc i

/-- `write_index_impl`, manager_disk.cpp:375-386: both parts at the end of the file. -/
def write {α : Type} (c : Codec α) (b : Bytes) (i : α) : Bytes := b ++ frame c i

/-- `write_index_impl` one after the other, manager_disk.cpp:454-456, 470-472. -/
def writeAll {α : Type} (c : Codec α) (b : Bytes) (is : List α) : Bytes := is.foldl (write c) b

/-- `remove_index_impl`, manager_disk.cpp:443-458: all are read, the file is emptied and the others are written. -/
def dropIndex {α : Type} (c : Codec α) (b : Bytes) (n : Bytes) : Res Bytes :=
  (read c b).bind fun is => .ok (writeAll c [] (is.filter fun i => !(c.name i == n)))

/-- `remove_all_indexes_from_collection_impl`, manager_disk.cpp:460-474. -/
def dropColl {α : Type} (c : Codec α) (b : Bytes) (n : Bytes) : Res Bytes :=
  (read c b).bind fun is => .ok (writeAll c [] (is.filter fun i => !(c.coll i == n)))

/-- The file if the program stops in `write_index_impl` after `k` bytes. -/
def stopped {α : Type} (c : Codec α) (b : Bytes) (i : α) (k : Nat) : Bytes := b ++ (frame c i).take k

/-- The file if the program stops in `remove_index_impl` when `j` of the other indexes are written again. -/
def dropStopped {α : Type} (c : Codec α) (b : Bytes) (n : Bytes) (j : Nat) : Res Bytes :=
  (read c b).bind fun is => .ok (writeAll c [] ((is.filter fun i => !(c.name i == n)).take j))

/-- What is done with the file. -/
inductive Op (α : Type) where
  /-- an index is made -/
  | create (i : α)
  /-- an index is dropped, by its name -/
  | drop (name : Bytes)
  /-- a collection is dropped, by its name -/
  | dropColl (name : Bytes)

/-- One operation. -/
def step {α : Type} (c : Codec α) (b : Bytes) : Op α → Res Bytes
  | .create i => .ok (write c b i)
  | .drop n => dropIndex c b n
  | .dropColl n => dropColl c b n

/-- The operations one after the other. -/
def run {α : Type} (c : Codec α) (b : Bytes) : List (Op α) → Res Bytes
  | [] => .ok b
  | o :: os => (step c b o).bind fun b => run c b os

end Verif.IdxFile
