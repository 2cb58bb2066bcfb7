import Mathlib.Order.BoundedOrder.Basic
import Verif.Block.SplitUniq
/-!
Model of `segment_tree_t`, one leaf of the on-disk B+ tree: core/b_plus_tree/segment_tree.hpp, segment_tree.cpp.

A segment tree is a sequence of pages (`block_t`) with counters.

Simplifications, all stated here:
* all pages are loaded (`segments_[i].block != nullptr`); pages that are still on disk are loaded before use (C15 says what comes back);
* the `block_metadata` of a page holds the page's own smallest and largest key: `update_metadata_`
  (segment_tree.cpp:936-953) follows every change of a page;
* places in the file, time stamps, `modified` flags and capacities of the vectors are left out (file space is C14);
* `⊥` is `std::numeric_limits<physical_value>::min()`, `⊤` is its `max()` and the default value
  `index_t{}` (both are the null value, components/types/physical_value.hpp);
* counters are natural numbers.
A result `none` stands for undefined behaviour or a failing assertion inside a page operation.
-/
namespace Verif.Seg
open Verif.Block

/-- `segment_tree_t`, segment_tree.hpp:325-341. -/
structure Seg (K : Type) where
  blocks : List (Block K)
  count : Nat
  uniq : Nat

variable {K : Type} [LinearOrder K] [BoundedOrder K]

/-- `block_t::min_index`, block.cpp:258-266. -/
def bmin (b : Block K) : K := (minIndex b).getD ⊥

/-- `block_t::max_index`, block.cpp:267-274. -/
def bmax (b : Block K) : K := (maxIndex b).getD ⊤

/-- `find_range_`, segment_tree.cpp:811-823: the pages before `range.begin`. -/
def lo (s : Seg K) (k : K) : List (Block K) := s.blocks.takeWhile fun b => decide (bmax b < k)

/-- The pages from `range.begin` on. -/
def fromB (s : Seg K) (k : K) : List (Block K) := s.blocks.dropWhile fun b => decide (bmax b < k)

/-- `find_range_`: the range itself. -/
def mid (s : Seg K) (k : K) : List (Block K) := (fromB s k).takeWhile fun b => decide (bmin b ≤ k)

/-- The pages from `range.end` on. -/
def hi (s : Seg K) (k : K) : List (Block K) := (fromB s k).dropWhile fun b => decide (bmin b ≤ k)

/-- `min_index`, segment_tree.cpp:699-705. -/
def smin (s : Seg K) : K := match s.blocks.head? with
  | none => ⊥
  | some b => bmin b

/-- `max_index`, segment_tree.cpp:707-713. -/
def smax (s : Seg K) : K := match s.blocks.getLast? with
  | none => ⊤
  | some b => bmax b

/-- `contains_index`, segment_tree.cpp:573-584: only the first page of the range is asked. -/
def containsIndex (s : Seg K) (k : K) : Bool := match fromB s k with
  | [] => false
  | b :: _ => Block.containsIndex b k

/-- The pages `contains`, `item_count`, `get_item` and `get_items` look at, segment_tree.cpp:591-613: the range,
or the page after it when the range is empty. -/
def looked (s : Seg K) (k : K) : List (Block K) := match fromB s k with
  | [] => []
  | b :: _ => if (mid s k).isEmpty then [b] else mid s k

/-- `contains`, segment_tree.cpp:591-613. -/
def contains (s : Seg K) (k : K) (x : Bytes) : Bool := (looked s k).any fun b => Block.contains b k x

/-- `item_count`, segment_tree.cpp:615-636. -/
def itemCount (s : Seg K) (k : K) : Nat := ((looked s k).map fun b => Block.itemCount b k).sum

/-- The loop of `get_item`, segment_tree.cpp:651-662: `skipped` entries in the pages before. -/
def getItemLoop (k : K) (pos : Nat) : Nat → List (Block K) → Option Bytes
  | _, [] => none
  | skipped, b :: bs =>
    if pos < skipped + Block.itemCount b k then Block.getItem b k (skipped + Block.itemCount b k - pos - 1)
    else getItemLoop k pos (skipped + Block.itemCount b k) bs

/-- `get_item`, segment_tree.cpp:638-664 (`none`: the null item). -/
def getItem (s : Seg K) (k : K) (pos : Nat) : Option Bytes := match fromB s k with
  | [] => none
  | b :: _ => if (mid s k).isEmpty then Block.getItem b k pos else getItemLoop k pos 0 (mid s k)

/-- `get_items`, segment_tree.cpp:666-697. -/
def getItems (s : Seg K) (k : K) : List Bytes := (looked s k).flatMap fun b => Block.getItems b k

/-- The pages after putting a new entry, segment_tree.cpp:121-193: `pre`, `b`, `post` are the pages around
`append_node`. -/
def place (pre : List (Block K)) (b : Block K) (post : List (Block K)) (k : K) (x : Bytes) : Option (List (Block K)) :=
  if memOk b x.length then some (pre ++ (Block.append b k x).1 :: post)
  else if bmax b ≤ k then
    match post with
    | [] => some (pre ++ [b, fresh k x])
    | n :: post' =>
      if memOk n x.length then some (pre ++ b :: (Block.append n k x).1 :: post')
      else some (pre ++ b :: fresh k x :: n :: post')
  else if k ≤ bmin b then
    match pre.getLast? with
    | none => some (fresh k x :: b :: post)
    | some p =>
      if memOk p x.length then some (pre.dropLast ++ (Block.append p k x).1 :: b :: post)
      else (splitAppend ⊥ p k x).map fun r => pre.dropLast ++ pages r ++ b :: post
  else (splitAppend ⊥ b k x).map fun r => pre ++ pages r ++ post

/-- `append`, segment_tree.cpp:85-199. -/
def append (s : Seg K) (k : K) (x : Bytes) : Option (Seg K × Bool) :=
  if s.blocks.isEmpty then some (⟨[fresh k x], s.count + 1, s.uniq + 1⟩, true)
  else
    -- lines 103-114: the range and the page after it
    let seen := mid s k ++ (hi s k).take 1
    if seen.any fun b => Block.contains b k x then some (s, false)
    else
      let u := s.uniq + (if seen.any fun b => Block.containsIndex b k then 0 else 1)
      let r := match fromB s k with
        | b :: post => place (lo s k) b post k x
        | [] => match (lo s k).getLast? with
          | some b => place (lo s k).dropLast b [] k x
          | none => none
      r.map fun bs => (⟨bs, s.count + 1, u⟩, true)

/-- Pages around a page that became smaller, segment_tree.cpp:269-299 (`available / size > 0.8`, exact because page
sizes are far below 2^50). -/
def shrink (pre : List (Block K)) (b : Block K) (post : List (Block K)) : Option (List (Block K)) :=
  if b.full * 4 < b.avail * 5 then
    match post with
    | r :: post' =>
      if r.full - r.avail - HSZ ≤ b.avail then (merge b r).map fun b' => pre ++ b' :: post'
      else match pre.getLast? with
        | some l =>
          if b.full - b.avail - HSZ ≤ l.avail then (merge l b).map fun l' => pre.dropLast ++ l' :: post
          else some (pre ++ b :: post)
        | none => some (pre ++ b :: post)
    | [] => match pre.getLast? with
      | some l =>
        if b.full - b.avail - HSZ ≤ l.avail then (merge l b).map fun l' => pre.dropLast ++ l' :: post
        else some (pre ++ b :: post)
      | none => some (pre ++ b :: post)
  else some (pre ++ b :: post)

/-- The loop of `remove`, segment_tree.cpp:244-265, over the pages of the range: `pre` are the pages already
passed.  Result: pages, and the decrease of the counter of distinct keys. -/
def removeLoop (k : K) (x : Bytes) (post : List (Block K)) : List (Block K) → List (Block K) → Option (List (Block K) × Nat)
  | _, [] => none
  | pre, b :: bs =>
    if Block.contains b k x then
      let d := if Block.itemCount b k = 1 then 1 else 0
      let b' := (Block.remove b k x).1
      if b'.count = 0 then some (pre ++ bs ++ post, d) else (shrink pre b' (bs ++ post)).map fun l => (l, d)
    else if bs.isEmpty then (shrink pre b post).map fun l => (l, 0)
    else removeLoop k x post (pre ++ [b]) bs

/-- `remove`, segment_tree.cpp:208-302. -/
def remove (s : Seg K) (k : K) (x : Bytes) : Option (Seg K × Bool) :=
  if s.blocks.isEmpty then some (s, false)
  else if (mid s k).isEmpty then
    match hi s k with
    | [] => some (s, false)
    | b :: post =>
      if Block.containsIndex b k then
        let r := Block.remove b k x
        if r.2 then
          some (⟨lo s k ++ r.1 :: post, s.count - 1, s.uniq - (if Block.itemCount b k = 1 then 1 else 0)⟩, true)
        else some (s, false)
      else some (s, false)
  else (removeLoop k x (hi s k) (lo s k) (mid s k)).map fun r => (⟨r.1, s.count - 1, s.uniq - r.2⟩, true)

/-- One end of the range in `remove_index`, segment_tree.cpp:330-354: a page holding only this key is left for
deletion.  Result: the page if it stays, and the number of entries lost from it. -/
def dropEnd (b : Block K) (k : K) : Option (List (Block K) × Nat) :=
  if b.uniq = 1 then some ([], b.count) else (Block.removeIndex b k).map fun r => ([r.1], Block.itemCount b k)

/-- `remove_index`, segment_tree.cpp:304-369. -/
def removeIndex (s : Seg K) (k : K) : Option (Seg K × Bool) :=
  match fromB s k with
  | [] => some (s, false)
  | b :: _ =>
    if !Block.containsIndex b k then some (s, false)
    else
      match mid s k with
      | [] => none
      | f :: rest =>
        (dropEnd f k).bind fun (fs, n1) =>
          match rest.getLast? with
          | none => some (⟨lo s k ++ fs ++ hi s k, s.count - n1, s.uniq - 1⟩, true)
          | some l =>
            (dropEnd l k).map fun (ls, n2) =>
              (⟨lo s k ++ fs ++ ls ++ hi s k, s.count - (n1 + n2 + (rest.dropLast.map (·.count)).sum), s.uniq - 1⟩, true)

/-- The loop of `split` and of the first half of `balance_with`, segment_tree.cpp:384-425 and 446-488: pages are
taken from the end of `rev` (last page first) until `n` distinct keys are moved.  Result: the pages that stay (last
first), the moved pages in order, number of moved entries and of moved keys. -/
def takeTop : K → Nat → List (Block K) → Option (List (Block K) × List (Block K) × Nat × Nat)
  | _, _, [] => some ([], [], 0, 0)
  | prev, n, b :: rev =>
    let c := b.uniq - (if prev = bmax b then 1 else 0)
    if c ≤ n then
      (takeTop (bmin b) (n - c) rev).map fun r => (r.1, r.2.1 ++ [b], r.2.2.1 + b.count, r.2.2.2 + c)
    else
      let su := n + (if prev = bmin b then 1 else 0)
      if su = 0 ∨ su = b.uniq then some (b :: rev, [], 0, 0)
      else (splitUniques b su).map fun r => (r.1 :: rev, [r.2], b.count - r.1.count, n)

/-- `split`, segment_tree.cpp:371-428: this tree and the new one. -/
def split (s : Seg K) : Option (Seg K × Seg K) :=
  (takeTop ⊤ (s.uniq / 2) s.blocks.reverse).map fun r =>
    (⟨r.1.reverse, s.count - r.2.2.1, s.uniq - r.2.2.2⟩, ⟨r.2.1, r.2.2.1, r.2.2.2⟩)

/-- The second half of `balance_with`, segment_tree.cpp:489-531: pages are taken from the front of the other tree.
Result: the moved pages, those that stay, number of moved entries and of moved keys. -/
def takeBottom : K → Nat → List (Block K) → Option (List (Block K) × List (Block K) × Nat × Nat)
  | _, _, [] => some ([], [], 0, 0)
  | prev, n, b :: bs =>
    let c := b.uniq - (if prev = bmin b then 1 else 0)
    if c ≤ n then
      (takeBottom (bmax b) (n - c) bs).map fun r => (b :: r.1, r.2.1, r.2.2.1 + b.count, r.2.2.2 + c)
    else if c - n = 0 ∨ c - n = b.uniq then some ([], b :: bs, 0, 0)
    else (splitUniques b (c - n)).map fun r => ([r.1], r.2 :: bs, b.count - r.2.count, n)

/-- `balance_with`, segment_tree.cpp:430-533: this tree receives distinct keys from the other.  Result: this, other. -/
def balanceWith (s o : Seg K) : Option (Seg K × Seg K) :=
  let n := (s.uniq + o.uniq) / 2 - s.uniq
  if smax o < smin s then
    (takeTop ⊤ n o.blocks.reverse).map fun r =>
      (⟨r.2.1 ++ s.blocks, s.count + r.2.2.1, s.uniq + r.2.2.2⟩, ⟨r.1.reverse, o.count - r.2.2.1, o.uniq - r.2.2.2⟩)
  else
    (takeBottom ⊤ n o.blocks).map fun r =>
      (⟨s.blocks ++ r.1, s.count + r.2.2.1, s.uniq + r.2.2.2⟩, ⟨r.2.1, o.count - r.2.2.1, o.uniq - r.2.2.2⟩)

/-- `merge`, segment_tree.cpp:535-571: all pages of the other tree go to this one.  (The second addition of the
counters, lines 548-549, adds zero.) -/
def merge' (s o : Seg K) : Seg K :=
  if smax o < smin s then ⟨o.blocks ++ s.blocks, s.count + o.count, s.uniq + o.uniq⟩
  else ⟨s.blocks ++ o.blocks, s.count + o.count, s.uniq + o.uniq⟩

/-- Iteration over the whole segment tree, upwards (segment_tree.hpp:303-306, block.hpp:280-283). -/
def content (s : Seg K) : List (K × Bytes) := s.blocks.flatMap iterate

end Verif.Seg
