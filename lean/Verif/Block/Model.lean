import Mathlib.Order.Defs.LinearOrder
import Verif.Base.Bytes
/-!
Model of `block_t`, the page of the on-disk B+ tree: core/b_plus_tree/block.hpp, block.cpp.

A page is one buffer: a 16-byte header, the items growing upwards from offset 16, and an array of
`metadata` (24 bytes each) growing downwards from the end of the page.  The item area is modelled byte
by byte (`mem`); the metadata array is a list in address order, from `last_metadata_` to `end_`, which is
by descending key.

Simplifications, all stated here:
* keys are any linearly ordered type (for `physical_value` of one type; mixed types are C28's subject);
* string keys are values, not pointers into the page (block.cpp:118-121, 164-167 and so on keep the
  pointers in step with the bytes);
* sizes and offsets are natural numbers, exact while a page is smaller than 4 GB (block.cpp:58);
* `std::lower_bound` is the end of the longest prefix satisfying its predicate, which is what it returns
  on a sequence partitioned by the predicate.
-/
namespace Verif.Block

/-- `metadata`, block.hpp:34-38. -/
structure Meta (K : Type) where
  off : Nat
  size : Nat
  key : K
  deriving DecidableEq, Repr

/-- `sizeof(metadata)`, block.hpp:41: two uint32_t and a 16-byte `physical_value`. -/
def MSZ : Nat := 24
/-- `header_size`, block.hpp:42: checksum, count, unique count. -/
def HSZ : Nat := 16

abbrev Mem := Nat → UInt8

/-- `block_t`, block.hpp:289-311. -/
structure Block (K : Type) where
  full : Nat
  mem : Mem
  buf : Nat
  avail : Nat
  metas : List (Meta K)
  count : Nat
  uniq : Nat

/-- The bytes at `off`. -/
def slice (mem : Mem) (off n : Nat) : Bytes := (List.range n).map fun i => mem (off + i)

/-- `std::memcpy` of an item into the page. -/
def write (mem : Mem) (off : Nat) (bs : Bytes) : Mem := fun x =>
  if h : off ≤ x ∧ x < off + bs.length then bs[x - off]'(by omega) else mem x

/-- `std::memmove` inside the item area. -/
def move (mem : Mem) (dst src n : Nat) : Mem := fun x =>
  if dst ≤ x ∧ x < dst + n then mem (src + (x - dst)) else mem x

variable {K : Type} [LinearOrder K]

/-- `initialize`, block.cpp:56-70 (with `restore_block`, 288-299, on zero entries). -/
def empty (full : Nat) : Block K := ⟨full, fun _ => 0, HSZ, full - HSZ, [], 0, 0⟩

/-- `is_memory_available`, block.cpp:76-78. -/
def memOk (b : Block K) (n : Nat) : Bool := decide (n + MSZ ≤ b.avail)

/-- The item an entry of the metadata array stands for, `metadata_to_item_data_`, block.cpp:634-636. -/
def item (b : Block K) (m : Meta K) : Bytes := slice b.mem m.off m.size

/-- The comparison in `append`, `remove`, `contains`: block.cpp:100, 150, 213. -/
def hit (b : Block K) (x : Bytes) (m : Meta K) : Bool := m.size == x.length && slice b.mem m.off m.size == x

/-- `find_index_range_`, block.cpp:559-573: the part before the range (keys above `k`). -/
def before (b : Block K) (k : K) : List (Meta K) := b.metas.takeWhile fun m => decide (k < m.key)

/-- From the beginning of the range on. -/
def fromBegin (b : Block K) (k : K) : List (Meta K) := b.metas.dropWhile fun m => decide (k < m.key)

/-- `find_index_range_`, block.cpp:559-573: the range. -/
def range (b : Block K) (k : K) : List (Meta K) := (fromBegin b k).takeWhile fun m => decide (k ≤ m.key)

/-- `find_index_range_`, block.cpp:559-573: the part after the range. -/
def after (b : Block K) (k : K) : List (Meta K) := (fromBegin b k).dropWhile fun m => decide (k ≤ m.key)

/-- `append`, block.cpp:91-129 (an empty item is an assertion failure, line 93). -/
def append (b : Block K) (k : K) (x : Bytes) : Block K × Bool :=
  if !memOk b x.length then (b, false)
  else if (range b k).any (hit b x) then (b, false)
  else
    ({ b with
        mem := write b.mem b.buf x
        buf := b.buf + x.length
        avail := b.avail - (x.length + MSZ)
        metas := before b k ++ ⟨b.buf, x.length, k⟩ :: fromBegin b k
        count := b.count + 1
        uniq := b.uniq + (if (range b k).isEmpty then 1 else 0) }, true)

/-- The offset adjustment of `remove`, block.cpp:160-169. -/
def shiftMeta (off n : Nat) (m : Meta K) : Meta K := if off < m.off then { m with off := m.off - n } else m

/-- One match in `remove`, block.cpp:151-169: `pre` and `post` are the entries around the match `m`. -/
def delMeta (b : Block K) (pre : List (Meta K)) (m : Meta K) (post : List (Meta K)) : Block K :=
  { b with
    mem := move b.mem m.off (m.off + m.size) (b.buf - (m.off + m.size))
    buf := b.buf - m.size
    avail := b.avail + (m.size + MSZ)
    metas := (pre ++ post).map (shiftMeta m.off m.size) }

/-- The loop of `remove`, block.cpp:149-171, with `n` entries of the range left; `pre` and `post` are the
entries before the current one and after the range.  The loop goes on after a match. -/
def removeLoop (x : Bytes) : Nat → Block K → List (Meta K) → List (Meta K) → List (Meta K) → Block K
  | n + 1, b, pre, m :: todo, post =>
    if hit b x m then
      removeLoop x n (delMeta b pre m (todo ++ post)) (pre.map (shiftMeta m.off m.size))
        (todo.map (shiftMeta m.off m.size)) (post.map (shiftMeta m.off m.size))
    else removeLoop x n b (pre ++ [m]) todo post
  | _, b, _, _, _ => b

/-- `remove`, block.cpp:138-174: the counters are decreased before it is known whether the item is there. -/
def remove (b : Block K) (k : K) (x : Bytes) : Block K × Bool :=
  if (range b k).isEmpty then (b, false)
  else
    let b1 := { b with count := b.count - 1, uniq := if (range b k).length = 1 then b.uniq - 1 else b.uniq }
    (removeLoop x (range b k).length b1 (before b k) (range b k) (after b k), true)

/-- A run of bytes that stays, `untouched_spaces` of `remove_range_`, block.cpp:580. -/
structure Space where
  first : Nat
  second : Nat
  deriving DecidableEq, Repr

/-- Lines 592-599: the space `s` is cut by the entry at `off`. -/
def cutSpace (off size : Nat) (s : Space) : List Space :=
  let next : Space := ⟨off + size, s.second + s.first - off - size⟩
  if next.second ≠ 0 then [⟨s.first, off - s.first⟩, next] else [⟨s.first, off - s.first⟩]

/-- Lines 583-600: find the last space starting at or before `off` and cut it.  `none`: the assertion of
line 590. -/
def punch (off size : Nat) : List Space → Option (List Space)
  | [] => none
  | s :: rest =>
    if off < s.first then none
    else
      match rest with
      | [] => some (cutSpace off size s)
      | t :: _ =>
        if off < t.first then some (cutSpace off size s ++ rest)
        else (punch off size rest).map (s :: ·)

/-- Lines 583-601 over the whole range. -/
def punchAll : List (Meta K) → List Space → Option (List Space)
  | [], sp => some sp
  | m :: ms, sp => (punch m.off m.size sp).bind (punchAll ms)

/-- Lines 604-611: join spaces that touch. -/
def joinFrom (s : Space) : List Space → List Space
  | [] => [s]
  | t :: rest => if s.first + s.second = t.first then joinFrom ⟨s.first, s.second + t.second⟩ rest else s :: joinFrom t rest

def joinSpaces : List Space → List Space
  | [] => []
  | s :: rest => joinFrom s rest

/-- Lines 622-629: move the offsets of the entries of one space. -/
def shiftIn (t : Space) (n : Nat) (m : Meta K) : Meta K :=
  if t.first ≤ m.off ∧ m.off < t.first + t.second then { m with off := m.off - n } else m

/-- Lines 616-631: move the spaces down, one after the other.  Returns the bytes, the entries, and
`required_offset`. -/
def compact (mem : Mem) (metas : List (Meta K)) (req : Nat) (s : Space) : List Space → Mem × List (Meta K) × Nat
  | [] => (mem, metas, req)
  | t :: rest =>
    let tracked := s.first + s.second - req
    let req' := req + (t.first - (s.first + s.second))
    compact (move mem tracked t.first t.second) (metas.map (shiftIn t req')) req' t rest

/-- `remove_range_`, block.cpp:575-632, where `pre`, `rng`, `post` are the entries before, in and after
the range.  `none`: an assertion fails. -/
def removeRange (b : Block K) (pre rng post : List (Meta K)) : Option (Block K) :=
  if rng.isEmpty then none
  else
    match punchAll rng [⟨HSZ, b.buf⟩] with
    | none => none
    | some sp =>
      match joinSpaces sp with
      | [] => none
      | s :: rest =>
        let r := compact b.mem (pre ++ post) 0 s rest
        some { b with
          mem := r.1
          metas := r.2.1
          buf := b.buf - r.2.2
          avail := b.avail + (rng.map (·.size)).sum + rng.length * MSZ }

/-- `remove_index`, block.cpp:177-194. -/
def removeIndex (b : Block K) (k : K) : Option (Block K × Bool) :=
  if (range b k).isEmpty then some (b, false)
  else
    let b1 := { b with count := b.count - (range b k).length, uniq := b.uniq - 1 }
    (removeRange b1 (before b k) (range b k) (after b k)).map fun b2 => (b2, true)

/-- `contains_index`, block.cpp:196-200. -/
def containsIndex (b : Block K) (k : K) : Bool := !(range b k).isEmpty

/-- `contains`, block.cpp:207-219. -/
def contains (b : Block K) (k : K) (x : Bytes) : Bool := (range b k).any (hit b x)

/-- `item_count`, block.cpp:221-226. -/
def itemCount (b : Block K) (k : K) : Nat := (range b k).length

/-- `get_item`, block.cpp:228-237: the null item past the end. -/
def getItem (b : Block K) (k : K) (i : Nat) : Option Bytes := ((range b k)[i]?).map (item b)

/-- `get_items`, block.cpp:239-247. -/
def getItems (b : Block K) (k : K) : List Bytes := (range b k).map (item b)

/-- `min_index`, block.cpp:259-266 (`none`: the page is empty and the type's own minimum is returned). -/
def minIndex (b : Block K) : Option K := b.metas.getLast?.map (·.key)

/-- `max_index`, block.cpp:267-274. -/
def maxIndex (b : Block K) : Option K := b.metas.head?.map (·.key)

/-- Iteration from `begin()` to `end()`, block.hpp:280-283: upwards in keys. -/
def iterate (b : Block K) : List (K × Bytes) := b.metas.reverse.map fun m => (m.key, item b m)

/-- The copying loop of `split`, block.cpp:439-443: `ms` in the order of the loop (from `split_item - 1`
down to `last_metadata_`). -/
def copyInto (src : Block K) (dst : Block K) : List (Meta K) → Block K
  | [] => dst
  | m :: ms => copyInto src (append dst m.key (item src m)).1 ms

/-- `moved_indices` after `std::unique`, block.cpp:437-444: runs of equal keys counted once. -/
def runs : List K → Nat
  | [] => 0
  | [_] => 1
  | a :: b :: l => if a = b then runs (b :: l) else runs (b :: l) + 1

/-- `split`, block.cpp:406-451: the `n` entries with the largest keys go to a new page.  Result: the rest,
and the new page. -/
def split (b : Block K) (n : Nat) : Option (Block K × Block K) :=
  if n = 0 then some (b, empty b.full)
  else if n = b.count then
    some (empty b.full, b)
  else
    let moved := b.metas.take n
    let rest := b.metas.drop n
    let dst := copyInto b (empty b.full) moved.reverse
    let overlap := if rest.head?.map (·.key) = moved.getLast?.map (·.key) then 1 else 0
    let b1 := { b with count := b.count - n, uniq := b.uniq - (runs (moved.reverse.map (·.key)) - overlap) }
    (removeRange b1 [] moved rest).map fun b2 => (b2, dst)

/-- The choice in `split_append`, block.cpp:347-352: how many entries it takes from the top until half the
page is reached, and their size with that of the next one. -/
def halfPoint (full : Nat) : Nat → Nat → List (Meta K) → Nat × Nat
  | n, acc, [] => (n, acc)
  | n, acc, m :: ms => if acc < full / 2 then halfPoint full (n + 1) (acc + (m.size + MSZ)) ms else (n, acc + (m.size + MSZ))

/-- `align_to_block_size`, block.hpp:25-27. -/
def alignToBlock (n : Nat) : Nat := (n + (262144 - 1)) / 262144 * 262144

/-- A new page of `full` bytes with one entry. -/
def freshOf (full : Nat) (k : K) (x : Bytes) : Block K := (append (empty full) k x).1

/-- `create_initialize` followed by an append to the fresh page, block.cpp:388-390, 400-402. -/
def fresh (k : K) (x : Bytes) : Block K := freshOf (alignToBlock (x.length + HSZ + MSZ)) k x

/-- `split_append`, block.cpp:338-404.  Result: this page, the second, and possibly a third, in the order
in which the caller links them (this, first, second).  `kmin` is `std::numeric_limits<index_t>::min()`. -/
def splitAppend (kmin : K) (b : Block K) (k : K) (x : Bytes) : Option (Block K × Block K × Option (Block K)) :=
  let (n, acc) := halfPoint b.full 0 0 b.metas
  let splitKey := ((b.metas[n]?).map (·.key)).getD kmin
  let atEnd := decide (n = b.metas.length)
  let inside : Bool := match minIndex b, maxIndex b with
    | some lo, some hi => decide (lo < k) && decide (k < hi)
    | _, _ => false
  let toThis := !decide (splitKey < k)
  let possible :=
    if atEnd && inside then false
    else if !toThis then decide (x.length + acc < b.full - MSZ)
    else decide (x.length + MSZ < b.avail + acc)
  if possible then
    (split b n).map fun (b1, b2) => if toThis then ((append b1 k x).1, b2, none) else (b1, (append b2 k x).1, none)
  else if (before b k).isEmpty then some (b, fresh k x, none)
  else
    (split b (before b k).length).map fun (b1, b2) =>
      let (b1', ok1) := append b1 k x
      if ok1 then (b1', b2, none)
      else
        let (b2', ok2) := append b2 k x
        if ok2 then (b1, b2', none) else (b1, fresh k x, some b2)

/-- `merge`, block.cpp:488-553.  `none`: an assertion fails or memory outside the metadata array is read. -/
def merge (b o : Block K) : Option (Block K) :=
  if b.avail < o.full - o.avail - HSZ then none
  else if o.count = 0 then some b
  else
    match minIndex o, maxIndex o with
    | some olo, some ohi =>
      match minIndex b, maxIndex b with
      | some lo, some hi =>
        let delta := b.buf - HSZ
        let add := o.buf - HSZ
        let mem := write b.mem b.buf (slice o.mem HSZ add)
        if hi ≤ olo then
          some { b with
            mem := mem
            buf := b.buf + add
            metas := o.metas.map (fun m => { m with off := m.off + delta }) ++ b.metas
            avail := b.avail - (add + MSZ * o.count)
            count := b.count + o.count
            uniq := b.uniq + (o.uniq - (if olo = hi then 1 else 0)) }
        else if ohi ≤ lo then
          -- lines 530-545: only `other->count()` entries are moved, and the others are overwritten in place
          if b.metas.length < o.count then none
          else
            some { b with
              mem := mem
              buf := b.buf + add
              metas := b.metas.take o.count ++
                (o.metas ++ b.metas.drop o.count).map (fun m => { m with off := m.off + delta })
              avail := b.avail - (add + MSZ * o.count)
              count := b.count + o.count
              uniq := b.uniq + (o.uniq - (if ohi = lo then 1 else 0)) }
        else
          -- lines 548-551: `metadata_to_item_data_` reads this page, not the other one
          some (copyInto b b o.metas.reverse)
      | _, _ => some (copyInto b b o.metas.reverse)
    | _, _ => none

end Verif.Block
