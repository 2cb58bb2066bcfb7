import Verif.Base.Res
/-!
Model of components/table/segment_tree.hpp: the ordered segment list of a column or of the row
groups of a table, and the binary search in it.

`finished_loading_` is true from construction on and nothing in /repo clears it, so
`load_next_segment` (segment_tree.hpp:277-290) always returns false; lazy loading is left out.
The mutex is left out: every function here runs under it. Segments are (start, count); the
`uint64_t` arithmetic of the search wraps at 2^64 as in the code.
-/
namespace Verif.SegLookup
open Verif

/-- `segment_base_t`, segment_tree.hpp:13-24 (`row_start` of the node always equals `start`,
segment_tree.hpp:141 and 225). -/
structure Seg where
  start : Nat
  count : Nat
  deriving DecidableEq, Repr

/-- The loop of `try_segment_index`, segment_tree.hpp:197-211. `nodes_[index]` out of range is
undefined behaviour. -/
def bsearch (nodes : List Seg) (row : Nat) : Nat → Nat → Nat → Res (Option Nat)
  | 0, _, _ => .diverges
  | fuel + 1, lower, upper =>
    if lower ≤ upper then
      let index := ((lower + upper) % 2 ^ 64) / 2
      match nodes[index]? with
      | none => .ub
      | some e =>
        if row < e.start then bsearch nodes row fuel lower (if index = 0 then 2 ^ 64 - 1 else index - 1)
        else if (e.start + e.count) % 2 ^ 64 ≤ row then bsearch nodes row fuel (index + 1) upper
        else .ok (some index)
    else .ok none

/-- `try_segment_index`, segment_tree.hpp:186-212. The interval shrinks in each round, so
`nodes.length + 1` rounds suffice (proved below, the outcome is never `diverges`). -/
def tryIndex (nodes : List Seg) (row : Nat) : Res (Option Nat) :=
  if nodes.isEmpty then .ok none else bsearch nodes row (nodes.length + 1) 0 (nodes.length - 1)

/-- `segment_index`, segment_tree.hpp:178-184. -/
def segmentIndex (nodes : List Seg) (row : Nat) : Res Nat :=
  match tryIndex nodes row with
  | .ok (some i) => .ok i
  | .ok none => .throws
  | .throws => .throws
  | .ub => .ub
  | .diverges => .diverges

/-- `get_segment`, segment_tree.hpp:129-131. -/
def getSegment (nodes : List Seg) (row : Nat) : Res Seg :=
  match segmentIndex nodes row with
  | .ok i => match nodes[i]? with
    | some s => .ok s
    | none => .ub
  | .throws => .throws
  | .ub => .ub
  | .diverges => .diverges

/-- `append_segment`, segment_tree.hpp:133-152. -/
def appendSegment (nodes : List Seg) (s : Seg) : List Seg := nodes ++ [s]

/-- `erase_segments`, segment_tree.hpp:170-176. `nodes_.size() - 1` wraps for an empty vector. -/
def eraseSegments (nodes : List Seg) (segmentStart : Nat) : Res (List Seg) :=
  let last := if nodes.length = 0 then 2 ^ 64 - 1 else nodes.length - 1
  if last ≤ segmentStart then .ok nodes
  else if segmentStart + 1 ≤ nodes.length then .ok (nodes.take (segmentStart + 1)) else .ub

/-- The loop of `reinitialize`, segment_tree.hpp:221-227. -/
def reinitLoop (offset : Nat) : List Seg → Res Unit
  | [] => .ok ()
  | s :: rest => if s.start ≠ offset then .throws else reinitLoop (offset + s.count) rest

/-- `reinitialize`, segment_tree.hpp:216-228. -/
def reinitialize : List Seg → Res Unit
  | [] => .ok ()
  | s :: rest => reinitLoop s.start (s :: rest)

/-- `segment_at`, segment_tree.hpp:83-99. -/
def segmentAt (nodes : List Seg) (index : Int) : Option Seg :=
  if index < 0 then
    if index + nodes.length < 0 then none else nodes[(index + nodes.length).toNat]?
  else nodes[index.toNat]?

end Verif.SegLookup
