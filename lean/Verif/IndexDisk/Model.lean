import Verif.BTree.Model
/-!
Model of the on-disk index: services/disk/index_disk.cpp and the query part of services/disk/index_agent_disk.cpp.

The keys are the values `convert` (index_disk.cpp:26-62) produces, as a linear order (for the types it accepts and
where their comparison is one, see C27).  An entry is the msgpack array [key, row id] (`pack`); `keyOf` and `idOf` are
the functions `item_key_getter` and `id_getter` (index_disk.cpp:11-24) that read it back.
-/
namespace Verif.IndexDisk
open Verif.BTree

variable {K Id : Type} [LinearOrder K] [BoundedOrder K] [DecidableEq Id]

/-- The encoding of entries, index_disk.cpp:11-24 and 77-81. -/
structure Codec (K Id : Type) where
  pack : K → Id → Bytes
  keyOf : Bytes → K
  idOf : Bytes → Id

/-- `std::numeric_limits<size_t>::max()`, the limit of the scans. -/
def NOLIMIT : Nat := 18446744073709551615

/-- The loop of `find`, index_disk.cpp:112-116; a null item read by `id_getter` is undefined behaviour. -/
def findFrom (c : Codec K Id) (t : Tree K) (k : K) : Nat → Nat → Res (List Id)
  | 0, _ => .ok []
  | n + 1, i => (getItem t k i).bind fun
    | none => .ub
    | some x => (findFrom c t k n (i + 1)).bind fun r => .ok (c.idOf x :: r)

/-- `find`, index_disk.cpp:109-117. -/
def find (c : Codec K Id) (t : Tree K) (k : K) : Res (List Id) := (itemCount t k).bind fun n => findFrom c t k n 0

/-- `lower_bound`, index_disk.cpp:125-138. -/
def lowerBound (c : Codec K Id) (t : Tree K) (k : K) : Res (List Id) :=
  (scanAscending t ⊥ k NOLIMIT fun e => decide (e.1 ≠ k)).bind fun l => .ok (l.map fun e => c.idOf e.2)

/-- `upper_bound`, index_disk.cpp:146-159. -/
def upperBound (c : Codec K Id) (t : Tree K) (k : K) : Res (List Id) :=
  (scanDecending t k ⊤ NOLIMIT fun e => decide (e.1 ≠ k)).bind fun l => .ok (l.map fun e => c.idOf e.2)

/-- `insert`, index_disk.cpp:73-87 (the flush is `BTree.flush`, not repeated here). -/
def insert (c : Codec K Id) (mx : Nat) (t : Tree K) (k : K) (d : Id) : Res (Tree K) :=
  (find c t k).bind fun l =>
    if d ∈ l then .ok t else (append mx t (c.keyOf (c.pack k d)) (c.pack k d)).bind fun r => .ok r.1

/-- `remove(key)`, index_disk.cpp:89-92. -/
def removeKey (mx : Nat) (t : Tree K) (k : K) : Res (Tree K) := (removeIndex mx t k).bind fun r => .ok r.1

/-- `remove(key, id)`, index_disk.cpp:94-107. -/
def removePair (c : Codec K Id) (mx : Nat) (t : Tree K) (k : K) (d : Id) : Res (Tree K) :=
  (find c t k).bind fun l =>
    if l = [] then .ok t else (BTree.remove mx t (c.keyOf (c.pack k d)) (c.pack k d)).bind fun r => .ok r.1

/-- The comparisons that reach the index, components/expressions/forward.hpp: `compare_type` (`other`: the rest). -/
inductive Cmp where
  | eq | ne | gt | lt | gte | lte | other

/-- Append the results of two calls. -/
def both {α : Type} (a b : Res (List α)) : Res (List α) := a.bind fun x => b.bind fun y => .ok (x ++ y)

/-- `index_agent_disk_t::find`, index_agent_disk.cpp:111-147. -/
def query (c : Codec K Id) (t : Tree K) (k : K) : Cmp → Res (List Id)
  | .eq => find c t k
  | .ne => both (lowerBound c t k) (upperBound c t k)
  | .gt => upperBound c t k
  | .lt => lowerBound c t k
  | .gte => both (find c t k) (upperBound c t k)
  | .lte => both (lowerBound c t k) (find c t k)
  | .other => .ok []

end Verif.IndexDisk
