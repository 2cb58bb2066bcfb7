import Mathlib.Logic.Function.Basic
/-!
The buffer manager of components/table/storage: blocks of memory that clients allocate, hold, pin and let go, the pool that
counts the memory they take, and the eviction of blocks nobody has pinned when the limit is reached.

Simplifications.  One operation runs to its end before the next begins (the locks of block_handle.hpp:147 and
buffer_pool.hpp:54,153); the thread of each operation matters only for the counter cache it uses and is a parameter.  Sizes
and counters are unbounded numbers (uint64_t, int64_t).  Blocks of a file (file_buffer_type::BLOCK, register_block,
prefetch, batch_read) are left out: the one block manager there is refuses to read or write them
(in_memory_block_manager.hpp:11-57).  No caller sets destroy_buffer_condition::UNPIN, an eviction queue index or eviction
timestamps (services/collection/collection.hpp:41,51), nor calls purge_aged_blocks.  Bytes of a buffer are given by a
function on offsets, what a fresh buffer holds is a parameter.
-/
namespace Verif.Buf

abbrev Data := Nat → UInt8

/-- `memory_tag::MEMORY_TAG_COUNT` and `TOTAL_MEMORY_USAGE_INDEX` (block_handle.hpp:36, buffer_pool.hpp:121): there are 13
tags, the counter of index 13 is the total. -/
def TOTAL : Nat := 13
/-- `memory_tag::IN_MEMORY_TABLE` (block_handle.hpp:32). -/
def inMemoryTable : Nat := 9
/-- `memory_tag::EXTENSION` (block_handle.hpp:34). -/
def extension : Nat := 11
/-- `MEMORY_USAGE_CACHE_COUNT` (buffer_pool.hpp:119). -/
def caches : Nat := 64
/-- `MEMORY_USAGE_CACHE_THRESHOLD` (buffer_pool.hpp:120). -/
def threshold : Nat := 32768

/-- `block_handle_t` (block_handle.hpp:146-160): `tag_`, `buffer_type_` (tiny or managed), `destroy_condition_` (`spare`: it is
EVICTION), `memory_usage_` (`alloc`), the size of `memory_charge_`, `buffer_` with `state_` (`none`: UNLOADED),
`readers_`, `eviction_seq_num_`.  `refs` and `pins` are the shared pointers to it held by clients and by buffer handles. -/
structure Block where
  tag : Nat
  tiny : Bool
  spare : Bool
  alloc : Nat
  charge : Nat
  data : Option Data
  readers : Nat
  seq : Nat
  refs : Nat
  pins : Nat

/-- `buffer_eviction_node_t` (buffer_pool.hpp:13-22). -/
structure Node where
  block : Nat
  seq : Nat
deriving DecidableEq, Repr

/-- `buffer_pool_t` (buffer_pool.hpp:152-158) with its counters (buffer_pool.hpp:125-126) and queues
(buffer_pool.hpp:44,52,53), the blocks and buffer handles in use, numbered in the order they are made, and what clients have
reserved and not freed (no field of the code). -/
structure Pool where
  main : Nat → Int
  cache : Nat → Nat → Int
  limit : Nat
  blk : Nat → Option Block
  queue : Nat → List Node
  inserted : Nat → Nat
  dead : Nat → Nat
  next : Nat
  handle : Nat → Option Nat
  nextH : Nat
  reserved : Nat

/-- The constructor `buffer_pool_t` (buffer_pool.cpp:143-159) and `memory_usage_t` (buffer_pool.cpp:319-328). -/
def Pool.start (limit : Nat) : Pool :=
  ⟨fun _ => 0, fun _ _ => 0, limit, fun _ => none, fun _ => [], fun _ => 0, fun _ => 0, 0, fun _ => none, 0, 0⟩

/-- One counter of one cache in `update_used_memory` (buffer_pool.cpp:335-339 and 340-344). -/
def bump (cpu ix : Nat) (d : Int) (s : Pool) : Pool :=
  let n := s.cache cpu ix + d
  if threshold ≤ n.natAbs then
    { s with cache := Function.update s.cache cpu (Function.update (s.cache cpu) ix 0)
             main := Function.update s.main ix (s.main ix + n) }
  else { s with cache := Function.update s.cache cpu (Function.update (s.cache cpu) ix n) }

/-- `memory_usage_t::update_used_memory` (buffer_pool.cpp:330-349) on the thread whose number hashes to `thread`. -/
def account (thread tag : Nat) (d : Int) (s : Pool) : Pool :=
  if d.natAbs < threshold then bump (thread % caches) TOTAL d (bump (thread % caches) tag d s)
  else
    let m := Function.update s.main tag (s.main tag + d)
    { s with main := Function.update m TOTAL (m TOTAL + d) }

/-- `used_memory` with NO_FLUSH (buffer_pool.hpp:137-140). -/
def used (s : Pool) : Nat := (s.main TOTAL).toNat

/-- The sum of the first `n` numbers of `f`. -/
def sumZ (f : Nat → Int) : Nat → Int
  | 0 => 0
  | n + 1 => sumZ f n + f n

/-- `used_memory` with FLUSH (buffer_pool.hpp:141-146): the caches are emptied into the counter. -/
def flush (ix : Nat) (s : Pool) : Pool :=
  { s with cache := fun c => if c < caches then Function.update (s.cache c) ix 0 else s.cache c
           main := Function.update s.main ix (s.main ix + sumZ (fun c => s.cache c ix) caches) }

/-- `eviction_queue_sizes` (buffer_pool.hpp:107-109, buffer_pool.cpp:147). -/
def queueSizes : List Nat := [1, 6, 1]

/-- `eviction_queue_for_handle` (buffer_pool.cpp:293-313) for a block without an eviction queue index. -/
def queueOf (b : Block) : Nat := (queueSizes.take ((if b.tiny then 3 else 2) - 1)).sum

/-- `block_handle_t::can_unload` (block_handle.cpp:194-202). -/
def Block.canUnload (b : Block) : Bool := b.data.isSome && b.readers == 0

/-- `increment_dead_nodes`, `decrement_dead_nodes` and the subtraction of `purge_iteration` (buffer_pool.hpp:36-37,
buffer_pool.cpp:110): a uint64_t. -/
def addDead (q : Nat) (d : Int) (s : Pool) : Pool :=
  { s with dead := Function.update s.dead q ((s.dead q + d) % 2 ^ 64).toNat }

/-- `unload_and_take_block` (block_handle.cpp:177-187) of block `i`: the charge is given back, the buffer is gone. -/
def unload (thread i : Nat) (b : Block) (s : Pool) : Pool :=
  let s := account thread b.tag (-b.charge) s
  { s with blk := Function.update s.blk i (some { b with data := none, charge := 0 }) }

/-- `buffer_eviction_node_t::try_get_block_handle` (buffer_pool.cpp:14-30): the block if it is there, the node is its last and
it can be unloaded. -/
def Node.get (n : Node) (s : Pool) : Option Block :=
  match s.blk n.block with
  | none => none
  | some b => if n.seq = b.seq ∧ b.canUnload then some b else none

/-- `iterate_unloadable_blocks` (buffer_pool.cpp:113-141) with the function of `evict_blocks_internal`
(buffer_pool.cpp:218-235): the queue left, and whether enough was found, with the buffer taken over if one of the wanted size
was. -/
def iterate (thread extra lim : Nat) (want : Bool) (q : Nat) : List Node → Pool → Pool × Option (Option Data)
  | [], s => ({ s with queue := Function.update s.queue q [] }, none)
  | n :: ns, s =>
    match n.get s with
    | none => iterate thread extra lim want q ns (addDead q (-1) s)
    | some b =>
      let s' := unload thread n.block b s
      if want ∧ b.alloc = extra then ({ s' with queue := Function.update s'.queue q ns }, some b.data)
      else if used s' ≤ lim then ({ s' with queue := Function.update s'.queue q ns }, some none)
      else iterate thread extra lim want q ns s'

/-- `evict_blocks` (buffer_pool.cpp:192-204) over the queues given, with `evict_blocks_internal` (buffer_pool.cpp:206-242)
for each: on success the memory asked for stays charged. -/
def evictFrom (thread tag extra lim : Nat) (want : Bool) : List Nat → Pool → Pool × Option (Option Data)
  | [], s => (s, none)
  | q :: qs, s =>
    let s1 := account thread tag extra s
    if used s1 ≤ lim then (s1, some none)
    else
      match iterate thread extra lim want q (s1.queue q) s1 with
      | (s2, some r) => (s2, some r)
      | (s2, none) => evictFrom thread tag extra lim want qs (account thread tag (-extra) s2)

/-- `evict_blocks` (buffer_pool.cpp:192-204), all queues. -/
def evict (thread tag extra lim : Nat) (want : Bool) (s : Pool) : Pool × Option (Option Data) :=
  evictFrom thread tag extra lim want (List.range queueSizes.sum) s

/-- `purge_iteration` (buffer_pool.cpp:82-111). -/
def purgeStep (q : Nat) (s : Pool) : Pool :=
  let taken := (s.queue q).take 8192
  let alive := taken.filter fun n => (n.get s).isSome
  addDead q (-((taken.length - alive.length : Nat) : Int))
    { s with queue := Function.update s.queue q ((s.queue q).drop 8192 ++ alive) }

/-- The loop of `eviction_queue_t::purge` (buffer_pool.cpp:61-79). -/
def purgeLoop (q : Nat) : Nat → Pool → Pool
  | 0, s => s
  | k + 1, s =>
    let s := purgeStep q s
    let size := (s.queue q).length
    if size < 8192 * 4 then s
    else
      let dead := min (s.dead q) size
      if dead < (size - dead) * 3 then s else purgeLoop q k s

/-- `eviction_queue_t::purge` (buffer_pool.cpp:47-80). -/
def purge (q : Nat) (s : Pool) : Pool :=
  if (s.queue q).length < 8192 * 4 then s else purgeLoop q ((s.queue q).length / 8192) s

/-- `buffer_pool_t::add_to_eviction_queue` (buffer_pool.cpp:275-291, 32-35) for block `i`. -/
def push (i : Nat) (b : Block) (s : Pool) : Pool :=
  let q := queueOf b
  let ts := b.seq + 1
  let s := if ts ≠ 1 then addDead q 1 s else s
  { s with blk := Function.update s.blk i (some { b with seq := ts })
           queue := Function.update s.queue q (s.queue q ++ [⟨i, ts⟩])
           inserted := Function.update s.inserted q (s.inserted q + 1) }

/-- The queue is purged after every 4096th insertion (buffer_pool.cpp:34, standard_buffer_manager.cpp:257,264-266). -/
def enqueue (i : Nat) (b : Block) (s : Pool) : Pool :=
  let s := push i b s
  if s.inserted (queueOf b) % 4096 = 0 then purge (queueOf b) s else s

/-- `standard_buffer_manager_t::unpin` (standard_buffer_manager.cpp:246-267) of block `i`. -/
def unpinBlock (i : Nat) (b : Block) (s : Pool) : Pool :=
  if b.data.isNone ∨ b.tiny then { s with blk := Function.update s.blk i (some b) }
  else
    let b := { b with readers := b.readers - 1 }
    if b.readers = 0 then enqueue i b s else { s with blk := Function.update s.blk i (some b) }

/-- The last shared pointer to a block goes: `~block_handle_t` (block_handle.cpp:82-99).  Otherwise nothing happens. -/
def reap (thread i : Nat) (s : Pool) : Pool :=
  match s.blk i with
  | none => s
  | some b =>
    if b.refs + b.pins = 0 then
      let s := if b.data.isSome ∧ ¬ b.tiny then addDead (queueOf b) 1 s else s
      let s := if b.data.isSome then account thread b.tag (-b.charge) s else s
      { s with blk := Function.update s.blk i none }
    else s

/-- `buffer_manager_t::allocation_size` (buffer_manager.hpp:66-68) and, for managed buffers, `calculate_memory`
(file_buffer.cpp:59-70). -/
def allocationSize (n : Nat) : Nat := 4096 * ((4095 + (8 + n)) / 4096)

/-- The bytes a client may use of a buffer: `size_` after `resize` (file_buffer.cpp:72-80). -/
def Block.usable (b : Block) : Nat := if b.tiny then b.alloc else b.alloc - 8

/-- A block takes its place: `std::make_shared<block_handle_t>` (standard_buffer_manager.cpp:77-83, 97-103). -/
def addBlock (b : Block) (s : Pool) : Pool :=
  { s with blk := Function.update s.blk s.next (some b), next := s.next + 1 }

/-- What a buffer taken over or made holds: `construct_manager_buffer` (standard_buffer_manager.cpp:22-38). -/
def construct (junk : Data) : Option Data → Data
  | some d => d
  | none => junk

/-- The calls of a client.  `share` copies the block pointer of a buffer handle (buffer_handle.hpp:36), `unpin` destroys a
buffer handle, `drop` a block pointer; `write` and `read` go through `ptr()` of a buffer handle (buffer_handle.hpp:24-31). -/
inductive Op
  | small (tag size : Nat)
  | allocate (tag size : Nat) (canDestroy : Bool)
  | transient (size blockSize : Nat)
  | share (h : Nat)
  | pin (i : Nat)
  | unpin (h : Nat)
  | drop (i : Nat)
  | reserve (n : Nat)
  | free (n : Nat)
  | setLimit (n : Nat)
  | usage (ix : Nat)
  | write (h k : Nat) (v : UInt8)
  | read (h k : Nat)
deriving DecidableEq, Repr

/-- What a call answers: a buffer handle (with the number of its block), a block pointer, nothing, a number of bytes, a byte,
the exception "out of memory" (standard_buffer_manager.cpp:54, buffer_pool.cpp:164,171), the exception "Cannot perform IO in
in-memory database" (in_memory_block_manager.hpp:15); `noSuch` marks calls clients cannot make: handles and
pointers they do not hold, offsets outside the buffer, tags there are none of, empty managed buffers. -/
inductive Ans
  | handle (h i : Nat)
  | block (i : Nat)
  | done
  | bytes (n : Nat)
  | byte (v : UInt8)
  | oom
  | lost
  | noSuch
deriving DecidableEq, Repr

/-- `register_small_memory` (standard_buffer_manager.cpp:71-85). -/
def registerSmall (thread : Nat) (junk : Data) (tag size : Nat) (s : Pool) : Pool × Ans :=
  match evict thread tag size s.limit false s with
  | (s, none) => (s, .oom)
  | (s, some _) => (addBlock ⟨tag, true, false, size, size, some junk, 0, 0, 1, 0⟩ s, .block s.next)

/-- `register_memory` (standard_buffer_manager.cpp:87-104) of `alloc` bytes, then `pin` (standard_buffer_manager.cpp:108):
the block is loaded, so that is the `load` of standard_buffer_manager.cpp:206-208. -/
def allocateBytes (thread : Nat) (junk : Data) (tag alloc : Nat) (canDestroy : Bool) (s : Pool) : Pool × Ans :=
  match evict thread tag alloc s.limit true s with
  | (s, none) => (s, .oom)
  | (s, some r) =>
    let s1 := addBlock ⟨tag, false, canDestroy, alloc, alloc, some (construct junk r), 1, 0, 0, 1⟩ s
    ({ s1 with handle := Function.update s1.handle s1.nextH (some s.next), nextH := s1.nextH + 1 }, .handle s1.nextH s.next)

/-- `allocate` (standard_buffer_manager.cpp:106-109). -/
def allocate (thread : Nat) (junk : Data) (tag size : Nat) (canDestroy : Bool) (s : Pool) : Pool × Ans :=
  allocateBytes thread junk tag (allocationSize size) canDestroy s

/-- A copy of the block pointer of a buffer handle (buffer_handle.hpp:36). -/
def share (h : Nat) (s : Pool) : Pool × Ans :=
  match s.handle h with
  | none => (s, .noSuch)
  | some i =>
    match s.blk i with
    | none => (s, .noSuch)
    | some b => ({ s with blk := Function.update s.blk i (some { b with refs := b.refs + 1 }) }, .done)

/-- `~buffer_handle_t` (buffer_handle.cpp:29-40). -/
def unpin (thread h : Nat) (s : Pool) : Pool × Ans :=
  match s.handle h with
  | none => (s, .noSuch)
  | some i =>
    match s.blk i with
    | none => (s, .noSuch)
    | some b =>
      let s := { s with handle := Function.update s.handle h none }
      (reap thread i (unpinBlock i { b with pins := b.pins - 1 } s), .done)

/-- The rest of `register_transient_memory` (standard_buffer_manager.cpp:68): the block pointer of the buffer handle is
returned, the buffer handle goes. -/
def blockOf (thread : Nat) : Pool × Ans → Pool × Ans
  | (s, .handle h i) => ((unpin thread h (share h s).1).1, .block i)
  | r => r

/-- `register_transient_memory` (standard_buffer_manager.cpp:59-69). -/
def transient (thread : Nat) (junk : Data) (size blockSize : Nat) (s : Pool) : Pool × Ans :=
  if size < blockSize then registerSmall thread junk inMemoryTable size s
  else blockOf thread (allocate thread junk inMemoryTable size false s)

/-- `pin` (standard_buffer_manager.cpp:200-238).  The number of a block is below MAXIMUM_BLOCK (a uint32_t,
standard_buffer_manager.hpp:73), so `load` of one that was unloaded asks the block manager for a block
(block_handle.cpp:158-175), which throws; the reservation is given back (block_handle.hpp:67). -/
def pin (thread i : Nat) (s : Pool) : Pool × Ans :=
  match s.blk i with
  | none => (s, .noSuch)
  | some b =>
    if b.refs = 0 then (s, .noSuch)
    else
      match b.data with
      | some _ =>
        ({ s with blk := Function.update s.blk i (some { b with readers := b.readers + 1, pins := b.pins + 1 })
                  handle := Function.update s.handle s.nextH (some i), nextH := s.nextH + 1 }, .handle s.nextH i)
      | none =>
        match evict thread b.tag b.alloc s.limit true s with
        | (s, none) => (s, .oom)
        | (s, some _) => (account thread b.tag (-b.alloc) s, .lost)

/-- A client lets a block pointer go. -/
def drop (thread i : Nat) (s : Pool) : Pool × Ans :=
  match s.blk i with
  | none => (s, .noSuch)
  | some b =>
    if b.refs = 0 then (s, .noSuch)
    else (reap thread i { s with blk := Function.update s.blk i (some { b with refs := b.refs - 1 }) }, .done)

/-- `reserve_memory` (standard_buffer_manager.cpp:283-289). -/
def reserve (thread n : Nat) (s : Pool) : Pool × Ans :=
  if n = 0 then (s, .done)
  else
    match evict thread extension n s.limit false s with
    | (s, none) => (s, .oom)
    | (s, some _) => ({ s with reserved := s.reserved + n }, .done)

/-- `free_reserved_memory` (standard_buffer_manager.cpp:291-296). -/
def free (thread n : Nat) (s : Pool) : Pool × Ans :=
  if s.reserved < n then (s, .noSuch)
  else if n = 0 then (s, .done)
  else ({ account thread extension (-n) s with reserved := s.reserved - n }, .done)

/-- `set_limit` (buffer_pool.cpp:161-174). -/
def setLimit (thread n : Nat) (s : Pool) : Pool × Ans :=
  match evict thread extension 0 n false s with
  | (s, none) => (s, .oom)
  | (s, some _) =>
    match evict thread extension 0 n false { s with limit := n } with
    | (s', none) => ({ s' with limit := s.limit }, .oom)
    | (s', some _) => (s', .done)

/-- `get_memory_usage_info` for one tag (standard_buffer_manager.cpp:271-281) and, for the total, `used_memory`
(buffer_pool.cpp:186). -/
def usage (ix : Nat) (s : Pool) : Pool × Ans :=
  (flush ix s, .bytes ((flush ix s).main ix).toNat)

/-- A byte is written through a buffer handle. -/
def write (h k : Nat) (v : UInt8) (s : Pool) : Pool × Ans :=
  match s.handle h with
  | none => (s, .noSuch)
  | some i =>
    match s.blk i with
    | none => (s, .noSuch)
    | some b =>
      match b.data with
      | none => (s, .noSuch)
      | some d =>
        if b.usable ≤ k then (s, .noSuch)
        else ({ s with blk := Function.update s.blk i (some { b with data := some (Function.update d k v) }) }, .done)

/-- A byte is read through a buffer handle. -/
def readByte (h k : Nat) (s : Pool) : Pool × Ans :=
  match s.handle h with
  | none => (s, .noSuch)
  | some i =>
    match s.blk i with
    | none => (s, .noSuch)
    | some b =>
      match b.data with
      | none => (s, .noSuch)
      | some d => if b.usable ≤ k then (s, .noSuch) else (s, .byte (d k))

/-- What surrounds a call: its thread and what a buffer made by it happens to hold. -/
structure Env where
  thread : Nat
  junk : Data

/-- One call (standard_buffer_manager.cpp:48-296, cited at each). -/
def step (e : Env) : Op → Pool → Pool × Ans
  | .small tag size, s => if tag < TOTAL then registerSmall e.thread e.junk tag size s else (s, .noSuch)
  | .allocate tag size cd, s =>
    if tag < TOTAL ∧ 0 < size then allocate e.thread e.junk tag size cd s else (s, .noSuch)
  | .transient size bs, s => if size ≤ bs ∧ 0 < size then transient e.thread e.junk size bs s else (s, .noSuch)
  | .share h, s => share h s
  | .pin i, s => pin e.thread i s
  | .unpin h, s => unpin e.thread h s
  | .drop i, s => drop e.thread i s
  | .reserve n, s => reserve e.thread n s
  | .free n, s => free e.thread n s
  | .setLimit n, s => setLimit e.thread n s
  | .usage ix, s => if ix ≤ TOTAL then usage ix s else (s, .noSuch)
  | .write h k v, s => write h k v s
  | .read h k, s => readByte h k s

/-- A history: the answers, one for each call. -/
def run : List (Env × Op) → Pool → Pool × List Ans
  | [], s => (s, [])
  | (e, op) :: ops, s =>
    let r := step e op s
    let rs := run ops r.1
    (rs.1, r.2 :: rs.2)

/-- A buffer of memory: `internal_buffer_` of `internal_size_` bytes, of which clients see those after the header
(file_buffer.hpp:62-65). -/
structure Buffer where
  internal : List UInt8
  header : Nat

/-- The bytes clients see (`buffer_`, `size_`; file_buffer.hpp:62-63). -/
def Buffer.user (b : Buffer) : List UInt8 := b.internal.drop b.header

/-- `resize` (file_buffer.cpp:72-80) of a managed buffer with `reallocate_buffer` (file_buffer.cpp:47-57): as many bytes as the
user had are copied, from the start of the internal buffer; `fresh` is what the new memory holds. -/
def Buffer.resize (b : Buffer) (newSize : Nat) (fresh : Nat → UInt8) : Buffer :=
  let n := allocationSize newSize
  let kept := b.internal.take (min n b.user.length)
  ⟨kept ++ (List.range (n - kept.length)).map (fun k => fresh (kept.length + k)), 8⟩

end Verif.Buf
