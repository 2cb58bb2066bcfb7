import Verif.Base.Res
import Verif.SegTree.Model
/-!
Model of `btree_t`, the on-disk B+ tree: core/b_plus_tree/b_plus_tree.hpp, b_plus_tree.cpp.

Representation.  The leaves are one list in the order of their links (`left_node_`, `right_node_`).  The inner
nodes are given level by level, from the bottom: each inner node is its number of children, so the children of the
nodes of a level are consecutive pieces of the level below.  The links between inner nodes of one level are the
order of the level's list.  Every place where the code decides by comparing keys where a node goes is modelled with
that comparison; if the answer contradicts the order of the lists the outcome is `ub`.

Simplifications, all stated here:
* one thread: a lock that is held when it is requested again means the call never returns (`diverges`);
  only the locks that a call leaves behind are tracked (`locked`);
* `std::lower_bound` is the length of the longest prefix below the key (on a range that is not sorted a binary
  search could answer something else);
* files and segment identifiers are in `Ids.lean`;
* an inner node that is not the root has at least `min_node_capacity_` children (line 472 compares with `==`).
-/
namespace Verif.BTree
open Verif.Seg

/-- `leaf_node_t`; `locked`: an earlier call returned while holding the node's mutex. -/
structure Leaf (K : Type) where
  seg : Seg K
  locked : Bool

/-- `btree_t`, b_plus_tree.hpp:216-233. -/
structure Tree (K : Type) where
  leaves : List (Leaf K)
  levels : List (List Nat)
  count : Nat

variable {K : Type} [LinearOrder K] [BoundedOrder K]

/-- `btree_t::btree_t`: `root_ == nullptr`. -/
def empty : Tree K := ⟨[], [], 0⟩

/-- `std::lower_bound` over the smallest keys of nodes. -/
def lowerBound (ms : List K) (k : K) : Nat := (ms.takeWhile fun m => decide (m < k)).length

/-- `inner_node_t::find_node`, b_plus_tree.cpp:63-75, over the smallest keys of the children. -/
def pick (ms : List K) (k : K) : Nat :=
  match ms[lowerBound ms k]? with
  | none => lowerBound ms k - 1
  | some m => if lowerBound ms k = 0 then 0 else if k < m then lowerBound ms k - 1 else lowerBound ms k

/-- The children of the nodes of one level. -/
def chunks {α : Type} : List Nat → List α → List (List α)
  | [], _ => []
  | c :: cs, l => l.take c :: chunks cs (l.drop c)

/-- `min_index`, b_plus_tree.cpp:190-192. -/
def minOf (ms : List K) : K := (ms.head?).getD ⊥

/-- The smallest keys of the nodes of a level, from those of the level below. -/
def groupMins (cs : List Nat) (ms : List K) : List K := (chunks cs ms).map minOf

/-- The descent to a leaf, b_plus_tree.cpp:350-366, 462-478, 1080-1094: the position of the leaf. -/
def descend (k : K) : List (List Nat) → List K → Nat
  | [], _ => 0
  | cs :: up, ms =>
    let g := descend k up (groupMins cs ms)
    (cs.take g).sum + pick (((chunks cs ms)[g]?).getD []) k

/-- The smallest keys of the leaves. -/
def leafMins (t : Tree K) : List K := t.leaves.map fun l => smin l.seg

/-- The parent of child number `i`: the node through which the descent came. -/
def owner : List Nat → Nat → Nat
  | [], _ => 0
  | c :: cs, i => if i < c then 0 else owner cs (i - c) + 1

/-- Insertion of a new node, with smallest key `nm`, next to child number `i` of a level: b_plus_tree.cpp:393-425
with `insert` (77-106) and `inner_node_t::split` (124-133).  `ms` are the smallest keys of the children. -/
def insertUp (mx : Nat) : List (List Nat) → List K → Nat → K → Option (List (List Nat))
  | [], _, _, _ => some [[2]]
  | cs :: up, ms, i, nm =>
    let g := owner cs i
    let start := (cs.take g).sum
    let c := (cs[g]?).getD 0
    let ch := (ms.drop start).take c
    if c < mx then
      if start + lowerBound ch nm = i + 1 then some (cs.set g (c + 1) :: up) else none
    else
      let h := c - c / 2
      let um := minOf (ch.drop h)
      if um < nm then
        if start + h + lowerBound (ch.drop h) nm = i + 1 then
          (insertUp mx up (groupMins cs ms) g um).map ((cs.take g ++ h :: (c / 2 + 1) :: cs.drop (g + 1)) :: ·)
        else none
      else
        if start + lowerBound (ch.take h) nm = i + 1 then
          (insertUp mx up (groupMins cs ms) g um).map ((cs.take g ++ (h + 1) :: (c / 2) :: cs.drop (g + 1)) :: ·)
        else none

/-- `none` in a page operation is undefined behaviour. -/
def lift {α : Type} : Option α → Res α
  | some a => .ok a
  | none => .ub

/-- `append`, b_plus_tree.cpp:294-430. -/
def append (mx : Nat) (t : Tree K) (k : K) (x : Bytes) : Res (Tree K × Bool) :=
  match t.leaves, t.levels with
  | [], _ =>
    -- lines 297-312
    (lift (Seg.append ⟨[], 0, 0⟩ k x)).bind fun r => .ok (⟨[⟨r.1, false⟩], [], t.count + 1⟩, true)
  | [l], [] =>
    -- lines 313-342
    if l.seg.uniq < mx then
      (lift (Seg.append l.seg k x)).bind fun r => .ok (⟨[⟨r.1, l.locked⟩], [], t.count + (if r.2 then 1 else 0)⟩, r.2)
    else
      (lift (Seg.split l.seg)).bind fun ab =>
        if smin ab.2 < k then
          (lift (Seg.append ab.2 k x)).bind fun r =>
            .ok (⟨[⟨ab.1, l.locked⟩, ⟨r.1, false⟩], [[2]], t.count + (if r.2 then 1 else 0)⟩, r.2)
        else
          (lift (Seg.append ab.1 k x)).bind fun r =>
            .ok (⟨[⟨r.1, l.locked⟩, ⟨ab.2, false⟩], [[2]], t.count + (if r.2 then 1 else 0)⟩, r.2)
  | _, [] => .ub
  | ls, _ :: _ =>
    let i := descend k t.levels (leafMins t)
    match ls[i]? with
    | none => .ub
    | some l =>
      if l.locked then .diverges
      else if l.seg.uniq < mx then
        (lift (Seg.append l.seg k x)).bind fun r =>
          .ok (⟨ls.set i ⟨r.1, false⟩, t.levels, t.count + (if r.2 then 1 else 0)⟩, r.2)
      else
        (lift (Seg.split l.seg)).bind fun ab =>
          (if smin ab.2 ≤ k then (lift (Seg.append ab.2 k x)).bind fun r => .ok (ab.1, r.1, r.2)
           else (lift (Seg.append ab.1 k x)).bind fun r => .ok (r.1, ab.2, r.2)).bind fun (a, b, r) =>
            let ms := (ls.set i ⟨a, false⟩).map fun l => smin l.seg
            (lift (insertUp mx t.levels ms i (smin b))).bind fun lv =>
              .ok (⟨ls.take i ++ ⟨a, false⟩ :: ⟨b, false⟩ :: ls.drop (i + 1), lv, t.count + (if r then 1 else 0)⟩, r)

/-- Smallest and largest key of the nodes of a level. -/
def groupBounds (cs : List Nat) (bs : List (K × K)) : List (K × K) :=
  (chunks cs bs).map fun g => ((g.head?.map Prod.fst).getD ⊥, (g.getLast?.map Prod.snd).getD ⊤)

/-- The smallest and largest keys of the leaves. -/
def leafBounds (ls : List (Leaf K)) : List (K × K) := ls.map fun l => (smin l.seg, smax l.seg)

/-- `inner_node_t::balance`, b_plus_tree.cpp:135-156: `a` children receive from a neighbour with `b`. -/
def share (a b : Nat) : Nat × Nat := ((a + b) / 2, b - ((a + b) / 2 - a))

/-- Child number `i` of the level below is gone, `bs` are the bounds of the remaining ones:
b_plus_tree.cpp:545-575 and, going up, 508-543. -/
def removeUp (mx : Nat) : List (List Nat) → List (K × K) → Nat → Option (List (List Nat))
  | [], _, _ => none
  | cs :: up, bs, i =>
    let g := owner cs i
    let c := (cs[g]?).getD 0
    let cs' := cs.set g (c - 1)
    if c - 1 = 1 then
      -- lines 551-557: the parent is taken for the root
      if up.isEmpty then some [] else none
    else if up.isEmpty ∨ mx / 4 < c then some (cs' :: up)
    else
      let nb := groupBounds cs' bs
      let cur := (nb[g]?).getD (⊥, ⊤)
      match cs'[g + 1]?, nb[g + 1]? with
      | some r, some rb =>
        if r ≤ mx / 2 then
          -- right->merge(current)
          if cur.2 < rb.1 then
            let cs2 := cs'.take g ++ (c - 1 + r) :: cs'.drop (g + 2)
            (removeUp mx up (groupBounds cs2 bs) g).map (cs2 :: ·)
          else none
        else
          match (if g = 0 then none else cs'[g - 1]?), (if g = 0 then none else nb[g - 1]?) with
          | some l, some lb =>
            if l ≤ mx / 2 then
              if lb.2 < cur.1 then
                let cs2 := cs'.take (g - 1) ++ (l + (c - 1)) :: cs'.drop (g + 1)
                (removeUp mx up (groupBounds cs2 bs) g).map (cs2 :: ·)
              else none
            else if c - 1 < r ∧ cur.2 < rb.1 then
              some ((cs'.take g ++ (share (c - 1) r).1 :: (share (c - 1) r).2 :: cs'.drop (g + 2)) :: up)
            else none
          | _, _ =>
            if c - 1 < r ∧ cur.2 < rb.1 then
              some ((cs'.take g ++ (share (c - 1) r).1 :: (share (c - 1) r).2 :: cs'.drop (g + 2)) :: up)
            else none
      | _, _ =>
        match (if g = 0 then none else cs'[g - 1]?), (if g = 0 then none else nb[g - 1]?) with
        | some l, some lb =>
          if l ≤ mx / 2 then
            if lb.2 < cur.1 then
              let cs2 := cs'.take (g - 1) ++ (l + (c - 1)) :: cs'.drop (g + 1)
              (removeUp mx up (groupBounds cs2 bs) g).map (cs2 :: ·)
            else none
          else if c - 1 < l ∧ lb.2 < cur.1 then
            some ((cs'.take (g - 1) ++ (share (c - 1) l).2 :: (share (c - 1) l).1 :: cs'.drop (g + 1)) :: up)
          else none
        | _, _ => none

/-- `leaf_node_t::balance`, b_plus_tree.cpp:243-250.  Result: the current leaf and the neighbour. -/
def balanceLeaf (cur nb : Seg K) : Option (Seg K × Seg K) :=
  if nb.uniq < cur.uniq then (balanceWith nb cur).map fun r => (r.2, r.1) else balanceWith cur nb

/-- The underflow of leaf `i`, whose new content is `s`: b_plus_tree.cpp:508-543.  `byItems`: `remove` compares the
number of entries of the left neighbour (515), `remove_index` its number of keys (659). -/
def fixLeaf (mx : Nat) (byItems : Bool) (ls : List (Leaf K)) (levels : List (List Nat)) (i : Nat) (s : Seg K) :
    Res (List (Leaf K) × List (List Nat)) :=
  let left := if i = 0 then none else ls[i - 1]?
  let balanceRight (r : Leaf K) : Res (List (Leaf K) × List (List Nat)) :=
    if r.locked then .diverges
    else (lift (balanceLeaf s r.seg)).bind fun q =>
      .ok (ls.take i ++ ⟨q.1, false⟩ :: ⟨q.2, false⟩ :: ls.drop (i + 2), levels)
  let mergeLeft (l : Leaf K) : Res (List (Leaf K) × List (List Nat)) :=
    if l.locked then .diverges
    else
      let ls' := ls.take (i - 1) ++ ⟨merge' l.seg s, false⟩ :: ls.drop (i + 1)
      (lift (removeUp mx levels (leafBounds ls') i)).bind fun lv => .ok (ls', lv)
  match ls[i + 1]? with
  | some r =>
    if r.seg.uniq ≤ mx / 2 then
      if r.locked then .diverges
      else
        let ls' := ls.take i ++ ⟨merge' r.seg s, false⟩ :: ls.drop (i + 2)
        (lift (removeUp mx levels (leafBounds ls') i)).bind fun lv => .ok (ls', lv)
    else
      match left with
      | some l => if (if byItems then l.seg.count else l.seg.uniq) ≤ mx / 2 then mergeLeft l else balanceRight r
      | none => balanceRight r
  | none =>
    match left with
    | some l =>
      if (if byItems then l.seg.count else l.seg.uniq) ≤ mx / 2 then mergeLeft l
      else if l.locked then .diverges
      else (lift (balanceLeaf s l.seg)).bind fun q =>
        .ok (ls.take (i - 1) ++ ⟨q.2, false⟩ :: ⟨q.1, false⟩ :: ls.drop (i + 1), levels)
    | none => .ub

/-- `remove` (434-575) and `remove_index` (577-717), which differ in the operation on the leaf and in the decrease
of the item counter.  `op` is the operation on the leaf, `d` the decrease. -/
def removeWith (mx : Nat) (byItems : Bool) (t : Tree K) (k : K) (op : Seg K → Option (Seg K × Bool)) (d : Seg K → Nat) :
    Res (Tree K × Bool) :=
  match t.leaves, t.levels with
  | [], _ => .ok (t, false)
  | [l], [] =>
    (lift (op l.seg)).bind fun r =>
      let n := t.count - (if r.2 then d l.seg else 0)
      if r.1.count = 0 then .ok (⟨[], [], n⟩, r.2) else .ok (⟨[⟨r.1, l.locked⟩], [], n⟩, r.2)
  | _, [] => .ub
  | ls, _ :: _ =>
    let i := descend k t.levels (leafMins t)
    match ls[i]? with
    | none => .ub
    | some l =>
      if l.locked then .diverges
      -- lines 480-484: the leaf stays locked
      else if !Seg.containsIndex l.seg k then .ok (⟨ls.set i ⟨l.seg, true⟩, t.levels, t.count⟩, false)
      else
        (lift (op l.seg)).bind fun r =>
          let n := t.count - (if r.2 then d l.seg else 0)
          if mx / 4 < l.seg.uniq ∨ r.2 = false then .ok (⟨ls.set i ⟨r.1, false⟩, t.levels, n⟩, r.2)
          else (fixLeaf mx byItems ls t.levels i r.1).bind fun q => .ok (⟨q.1, q.2, n⟩, true)

/-- `remove`, b_plus_tree.cpp:434-575. -/
def remove (mx : Nat) (t : Tree K) (k : K) (x : Bytes) : Res (Tree K × Bool) :=
  removeWith mx true t k (fun s => Seg.remove s k x) (fun _ => 1)

/-- `remove_index`, b_plus_tree.cpp:577-717. -/
def removeIndex (mx : Nat) (t : Tree K) (k : K) : Res (Tree K × Bool) :=
  removeWith mx false t k (fun s => Seg.removeIndex s k) (fun s => Seg.itemCount s k)

/-- `find_leaf_node_`, b_plus_tree.cpp:960-989, with the shared lock on the leaf. -/
def findLeaf (t : Tree K) (k : K) : Res (Option (Seg K)) :=
  match t.leaves[descend k t.levels (leafMins t)]? with
  | none => .ok none
  | some l => if l.locked then .diverges else .ok (some l.seg)

/-- `contains_index`, b_plus_tree.cpp:864-876. -/
def containsIndex (t : Tree K) (k : K) : Res Bool :=
  (findLeaf t k).bind fun l => .ok ((l.map fun s => Seg.containsIndex s k).getD false)

/-- `contains`, b_plus_tree.cpp:878-890. -/
def contains (t : Tree K) (k : K) (x : Bytes) : Res Bool :=
  (findLeaf t k).bind fun l => .ok ((l.map fun s => Seg.contains s k x).getD false)

/-- `item_count`, b_plus_tree.cpp:892-904. -/
def itemCount (t : Tree K) (k : K) : Res Nat :=
  (findLeaf t k).bind fun l => .ok ((l.map fun s => Seg.itemCount s k).getD 0)

/-- `get_item`, b_plus_tree.cpp:906-918 (`none`: the null item). -/
def getItem (t : Tree K) (k : K) (i : Nat) : Res (Option Bytes) :=
  (findLeaf t k).bind fun l => .ok (l.bind fun s => Seg.getItem s k i)

/-- `get_items`, b_plus_tree.cpp:920-930. -/
def getItems (t : Tree K) (k : K) : Res (List Bytes) :=
  (findLeaf t k).bind fun l => .ok ((l.map fun s => Seg.getItems s k).getD [])

/-- The leaves from the one found for `k` on, following `right_node_`. -/
def leavesFrom (t : Tree K) (k : K) : List (Seg K) := (t.leaves.drop (descend k t.levels (leafMins t))).map (·.seg)

/-- The leaves from the one found for `k` back, following `left_node_`. -/
def leavesBack (t : Tree K) (k : K) : List (Seg K) := (t.leaves.take (descend k t.levels (leafMins t) + 1)).reverse.map (·.seg)

/-- `full_scan`, b_plus_tree.hpp:239-264: all entries that satisfy the predicate. -/
def fullScan (t : Tree K) (p : K × Bytes → Bool) : Res (List (K × Bytes)) :=
  (findLeaf t ⊥).bind fun l => match l with
  | none => .ok []
  | some _ => .ok (((leavesFrom t ⊥).flatMap content).filter p)

/-- The inner loops of `scan_ascending`, b_plus_tree.hpp:300-318, over the entries of one leaf.  Result: entries
found, the remaining limit, whether the scan is over. -/
def scanEntries (lo hi : K) (p : K × Bytes → Bool) : Nat → List (K × Bytes) → List (K × Bytes) × Nat × Bool
  | n, [] => ([], n, false)
  | n, e :: es =>
    if hi < e.1 then ([], n, true)
    else if e.1 < lo then scanEntries lo hi p n es
    else if p e then
      if n - 1 = 0 then ([e], 0, true)
      else
        let r := scanEntries lo hi p (n - 1) es
        (e :: r.1, r.2)
    else scanEntries lo hi p n es

/-- The outer loop of `scan_ascending`, b_plus_tree.hpp:295-320. -/
def scanLeaves (lo hi : K) (p : K × Bytes → Bool) : Nat → List (Seg K) → List (K × Bytes)
  | _, [] => []
  | n, s :: ss =>
    if hi < smin s then []
    else
      let r := scanEntries lo hi p n (content s)
      if r.2.2 then r.1 else r.1 ++ scanLeaves lo hi p r.2.1 ss

/-- `scan_ascending`, b_plus_tree.hpp:277-323 (a limit of zero returns at once; it leaves the leaf locked). -/
def scanAscending (t : Tree K) (lo hi : K) (limit : Nat) (p : K × Bytes → Bool) : Res (List (K × Bytes)) :=
  (findLeaf t lo).bind fun l => match l with
  | none => .ok []
  | some _ => if limit = 0 then .ok [] else .ok (scanLeaves lo hi p limit (leavesFrom t lo))

/-- The inner loops of `scan_decending`, b_plus_tree.hpp:356-374, over the entries of one leaf, largest first. -/
def scanBackEntries (lo hi : K) (p : K × Bytes → Bool) : Nat → List (K × Bytes) → List (K × Bytes) × Nat × Bool
  | n, [] => ([], n, false)
  | n, e :: es =>
    if e.1 < lo then ([], n, true)
    else if hi < e.1 then scanBackEntries lo hi p n es
    else if p e then
      if n - 1 = 0 then ([e], 0, true)
      else
        let r := scanBackEntries lo hi p (n - 1) es
        (e :: r.1, r.2)
    else scanBackEntries lo hi p n es

/-- The outer loop of `scan_decending`, b_plus_tree.hpp:351-376. -/
def scanBackLeaves (lo hi : K) (p : K × Bytes → Bool) : Nat → List (Seg K) → List (K × Bytes)
  | _, [] => []
  | n, s :: ss =>
    if smax s < lo then []
    else
      let r := scanBackEntries lo hi p n (content s).reverse
      if r.2.2 then r.1 else r.1 ++ scanBackLeaves lo hi p r.2.1 ss

/-- `scan_decending`, b_plus_tree.hpp:334-379. -/
def scanDecending (t : Tree K) (lo hi : K) (limit : Nat) (p : K × Bytes → Bool) : Res (List (K × Bytes)) :=
  (findLeaf t hi).bind fun l => match l with
  | none => .ok []
  | some _ => if limit = 0 then .ok [] else .ok (scanBackLeaves lo hi p limit (leavesBack t hi))

/-- `size`, b_plus_tree.cpp:939. -/
def size (t : Tree K) : Nat := t.count

/-- One level of `load`, b_plus_tree.cpp:827-850: how the nodes of a layer are packed; `fuel` bounds the loop. -/
def pack (mx : Nat) : Nat → Nat → List Nat
  | 0, _ => []
  | fuel + 1, n =>
    if n = 0 then []
    else
      let p := (mx + mx / 4) / 2
      if p + mx / 4 ≤ n then p :: pack mx fuel (n - p) else [n]

/-- The layers built by `load`, b_plus_tree.cpp:826-858. -/
def build (mx : Nat) : Nat → Nat → List (List Nat)
  | 0, _ => []
  | fuel + 1, n => if n ≤ 1 then [] else pack mx n n :: build mx fuel (pack mx n n).length

/-- The tree `load` builds from flushed leaves, b_plus_tree.cpp:803-866: the leaves come back in order, the inner
nodes are built anew, no lock is held.  (That a page comes back as it was is C15; the identifiers of the leaves are
in `Ids.lean`.) -/
def reload (mx : Nat) (t : Tree K) : Tree K :=
  ⟨t.leaves.map fun l => ⟨l.seg, false⟩, build mx t.leaves.length t.leaves.length, t.count⟩

/-- How many leaf identifiers fit behind the two counters in the metadata buffer, b_plus_tree.hpp:19 and
b_plus_tree.cpp:762-765 (262144 bytes). -/
def MAXLEAVES : Nat := 32766

/-- `flush`, b_plus_tree.cpp:744-782; `d` is what the files hold.  A tree without leaves writes nothing, too many
leaves overrun the buffer. -/
def flush (t : Tree K) (d : Option (Tree K)) : Res (Option (Tree K)) :=
  if t.leaves.length = 0 then .ok d else if MAXLEAVES < t.leaves.length then .ub else .ok (some t)

/-- `load`, b_plus_tree.cpp:784-870: without a metadata file nothing happens. -/
def load (mx : Nat) (t : Tree K) (d : Option (Tree K)) : Tree K := match d with
  | none => t
  | some u => reload mx u

end Verif.BTree
