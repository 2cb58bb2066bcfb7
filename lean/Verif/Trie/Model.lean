import Mathlib.Order.Basic
import Mathlib.Order.Defs.LinearOrder
/-!
Model of the versioned trie of the catalog: components/catalog/versioned_trie/versioned_trie.hpp,
versioned_trie_node.hpp, trie_containers.hpp, versioned_trie_iterator.hpp; and of the set of namespaces kept in it,
components/catalog/namespace_storage.cpp.

Simplifications:
* a node's children are one list of pairs instead of the two vectors `keys_` and `children_`, and a child's position is
  found in that list instead of being stored in the child (`parent_index_`);
* `std::lower_bound` is the first key that is not smaller;
* `longest_match_impl` followed by `create_children` (insert), and the upward loop of erase, are one descent;
* a running iteration is the list of the elements it visits;
* an iterator holds a reference (`add_ref`, `release_ref`) on the version it stands on while it lives.  All calls here
  end with their iterators destroyed, so these references do not show, with one exception: see `erase`.
-/
namespace Verif.Trie

/-- `versioned_entry` with its key in the map of versions, trie_containers.hpp:12-35, 41. -/
structure Ver (V : Type) where
  id : Nat
  refs : Nat
  val : V

/-- `is_alive`, trie_containers.hpp:28. -/
def Ver.alive {V : Type} (v : Ver V) : Bool := 0 < v.refs

mutual
/-- `versioned_trie_node`, versioned_trie_node.hpp:197-202: its versions (oldest first) and its children. -/
inductive Node (E V : Type) where
  | mk (vers : List (Ver V)) (kids : Kids E V)
/-- `keys_` and `children_`. -/
inductive Kids (E V : Type) where
  | nil
  | cons (e : E) (n : Node E V) (rest : Kids E V)
end

variable {E V : Type} [LinearOrder E]

def Node.vers : Node E V → List (Ver V) | .mk v _ => v
def Node.kids : Node E V → Kids E V | .mk _ k => k
/-- `empty`, versioned_trie_node.hpp:77. -/
def Kids.isNil : Kids E V → Bool
  | .nil => true
  | .cons _ _ _ => false
/-- `key_begin`, `key_end`, versioned_trie_node.hpp:86-87. -/
def Kids.keys : Kids E V → List E
  | .nil => []
  | .cons e _ r => e :: r.keys

/-- `find`, versioned_trie_node.hpp:91-104: lower bound, then a comparison. -/
def Kids.find : Kids E V → E → Option (Node E V)
  | .nil, _ => none
  | .cons k n r, e => if k < e then r.find e else if e < k then none else some n

/-- The child found is replaced. -/
def Kids.set : Kids E V → E → Node E V → Kids E V
  | .nil, _, _ => .nil
  | .cons k n r, e, m => if k < e then .cons k n (r.set e m) else .cons k m r

/-- `insert`, versioned_trie_node.hpp:149-158: before the first key that is not smaller. -/
def Kids.ins : Kids E V → E → Node E V → Kids E V
  | .nil, e, m => .cons e m .nil
  | .cons k n r, e, m => if k < e then .cons k n (r.ins e m) else .cons e m (.cons k n r)

/-- `erase`, versioned_trie_node.hpp:166-173: the child found is removed. -/
def Kids.del : Kids E V → E → Kids E V
  | .nil, _ => .nil
  | .cons k n r, e => if k < e then .cons k n (r.del e) else r

/-- The node at a path: `extend_subsequence_impl`, versioned_trie.hpp:213-241, when it consumes the whole path. -/
def Node.at : Node E V → List E → Option (Node E V)
  | n, [] => some n
  | .mk _ ks, e :: p => match ks.find e with
    | none => none
    | some c => c.at p

/-- The nodes made for the rest of a path, versioned_trie.hpp:255-263, with the first version of the last one. -/
def chain (v : Ver V) : List E → Node E V
  | [] => .mk [v] .nil
  | e :: p => .mk [] (.cons e (chain v p) .nil)

/-- `insert`, versioned_trie.hpp:136-150, below the root. -/
def insertAt (v : Ver V) : Node E V → List E → Node E V
  | .mk vs ks, [] => .mk (vs ++ [v]) ks
  | .mk vs ks, e :: p => match ks.find e with
    | none => .mk vs (ks.ins e (chain v p))
    | some c => .mk vs (ks.set e (insertAt v c p))

/-- `erase(iterator)`, versioned_trie.hpp:161-188, below the root.  Result: the node that stays, if it stays, and how
many versions are gone. -/
def eraseAt : Node E V → List E → Option (Node E V) × Nat
  | .mk vs ks, [] =>
    let vs' := vs.dropLast
    if !ks.isNil then (some (.mk vs' ks), 1)
    else if vs'.any Ver.alive then (some (.mk (vs'.filter Ver.alive) ks), 1 + (vs'.filter fun v => !v.alive).length)
    else (none, 1 + vs'.length)
  | .mk vs ks, e :: p => match ks.find e with
    | none => (some (.mk vs ks), 0)
    | some c => match eraseAt c p with
      | (some c', k) => (some (.mk vs (ks.set e c')), k)
      | (none, k) =>
        if (ks.del e).isNil && vs.isEmpty then (none, k) else (some (.mk vs (ks.del e)), k)

/-- In-place changes of the versions at a path through a reference (`ref_counted`, `get_namespace_info`):
versioned_trie_iterator.hpp:69, namespace_storage.cpp:126-133. -/
def touchAt (f : Ver V → Ver V) : Node E V → List E → Node E V
  | .mk vs ks, [] => .mk (vs.map f) ks
  | .mk vs ks, e :: p => match ks.find e with
    | none => .mk vs ks
    | some c => .mk vs (ks.set e (touchAt f c p))

/-- `versioned_trie`, versioned_trie.hpp:265-269; `root` is the child of `header_`. -/
structure Trie (E V : Type) where
  root : Option (Node E V)
  size : Int
  version : Nat

/-- The constructor, versioned_trie.hpp:22-26. -/
def Trie.empty : Trie E V := ⟨none, 0, 0⟩

/-- `find`, versioned_trie.hpp:75-84, and reading the element: the latest version. -/
def Trie.find (t : Trie E V) (p : List E) : Option V := match t.root with
  | none => none
  | some r => match r.at p with
    | none => none
    | some n => n.vers.getLast?.map Ver.val

/-- `get_versions`, trie_containers.hpp:56, at a path: the values, oldest first. -/
def Trie.versions (t : Trie E V) (p : List E) : List (Ver V) := match t.root with
  | none => []
  | some r => match r.at p with
    | none => []
    | some n => n.vers

/-- In-place changes, see `touchAt`. -/
def Trie.touch (t : Trie E V) (p : List E) (f : Ver V → Ver V) : Trie E V :=
  ⟨t.root.map fun r => touchAt f r p, t.size, t.version⟩

/-- `insert`, versioned_trie.hpp:130-150.  (`empty()` asks the counter; if it is zero the header gets a new child in
front, so an old one would be hidden.)  A new entry has no references. -/
def Trie.insert (t : Trie E V) (p : List E) (v : V) : Trie E V :=
  let root := if t.size = 0 then some (.mk [] .nil) else t.root
  ⟨root.map fun r => insertAt ⟨t.version, 0, v⟩ r p, t.size + 1, t.version + 1⟩

/-- Does `insert` throw, after the insertion is made?  If a version was added to a node that had none, the iterator
returned is built for the first child of the node's parent instead of the node (versioned_trie.hpp:149), and building it
reads version 0 of that child (versioned_trie_iterator.hpp:138-144, 155-164); without any version `std::map::at`
(trie_containers.hpp:55) throws. -/
def Trie.insertThrows (t : Trie E V) (p : List E) (v : V) : Bool :=
  match p with
  | [] => false
  | _ :: _ => (t.versions p).isEmpty && (match (t.insert p v).root with
    | none => false
    | some r => match r.at p.dropLast with
      | some (.mk _ (.cons _ n _)) => n.vers.isEmpty
      | _ => false)

/-- `erase(key)`, versioned_trie.hpp:152-159.  The second component: a node was destroyed while two iterators stand on
it; their destructors (versioned_trie_iterator.hpp:53, 147-153) then read the freed node.  In the model they read what
the node held last. -/
def Trie.erase (t : Trie E V) (p : List E) : Trie E V × Bool := match t.root with
  | none => (t, false)
  | some r => match t.find p with
    | none => (t, false)
    | some _ => (⟨(eraseAt r p).1, t.size - (eraseAt r p).2, t.version⟩,
        (r.at p).any fun n => n.kids.isNil && !(n.vers.dropLast.any Ver.alive))

mutual
/-- The iteration from `begin()` to `end()`, versioned_trie.hpp:47-68 and versioned_trie_iterator.hpp:71-107: the nodes
with versions, parents before children, children in order; each with its key and its latest value. -/
def Node.elems : Node E V → List (List E × V)
  | .mk vs ks => ((vs.getLast?.map fun v => (([] : List E), v.val)).toList) ++ ks.elems
def Kids.elems : Kids E V → List (List E × V)
  | .nil => []
  | .cons e n r => (n.elems.map fun q => (e :: q.1, q.2)) ++ r.elems
end

def Trie.elems (t : Trie E V) : List (List E × V) := match t.root with
  | none => []
  | some r => r.elems

/-- `longest_match_impl`, versioned_trie.hpp:205-241, and `back_up_to_match`, 243-253, from a node that was reached:
the node, whether it matches, and `leaf` (of the node reached, before backing up). `up` is the last node with versions
on the way. -/
def matchFrom (up : Option (Node E V)) : Node E V → List E → Option (Node E V) × Bool
  | .mk vs ks, [] => (if vs.isEmpty then up else some (.mk vs ks), ks.isNil)
  | .mk vs ks, e :: p => match ks.find e with
    | none => (if vs.isEmpty then up else some (.mk vs ks), ks.isNil)
    | some c => matchFrom (if vs.isEmpty then up else some (.mk vs ks)) c p

/-- `longest_match`, versioned_trie.hpp:86-95: the matching node (`res.match`) and `res.leaf`. -/
def Trie.longestMatch (t : Trie E V) (p : List E) : Option (Node E V) × Bool := match t.root with
  | none => (none, true)
  | some r => matchFrom none r p

/-! ### namespaces -/

/-- `namespace_exists`, namespace_storage.cpp:35-43. -/
def nsExists (t : Trie E V) (p : List E) : Bool := !p.isEmpty && (t.find p).isSome

/-- `create_namespace`, namespace_storage.cpp:8-22; the recursion is on the path without its last part, `n` is its
length; `info` is the new `namespace_info`.  Second component: an exception was thrown. -/
def createNs (info : V) : Nat → Trie E V → List E → Trie E V × Bool
  | 0, t, p => if nsExists t p then (t, false) else (t.insert p info, t.insertThrows p info)
  | n + 1, t, p =>
    if nsExists t p then (t, false)
    else
      let r := if 1 < p.length then (if nsExists t p.dropLast then (t, false) else createNs info n t p.dropLast) else (t, false)
      if r.2 then r else (r.1.insert p info, r.1.insertThrows p info)

/-- `create_namespace`. -/
def create (info : V) (t : Trie E V) (p : List E) : Trie E V × Bool := createNs info p.length t p

/-- `drop_namespace`, namespace_storage.cpp:24-33. -/
def drop (t : Trie E V) (p : List E) : Trie E V := if p.isEmpty || !nsExists t p then t else (t.erase p).1

/-- `list_all_namespaces`, namespace_storage.cpp:83-92. -/
def listAll (t : Trie E V) : List (List E) := t.elems.map Prod.fst

/-- `list_root_namespaces`, namespace_storage.cpp:46-58. -/
def listRoot (t : Trie E V) : List (List E) := (t.elems.map Prod.fst).filter fun p => p.length = 1

/-- `list_child_namespaces`, namespace_storage.cpp:60-81. -/
def listChild (t : Trie E V) (p : List E) : List (List E) :=
  if nsExists t p then
    match t.longestMatch p with
    | (some n, false) => n.kids.keys.map fun e => p ++ [e]
    | _ => []
  else []

/-- `has_child_namespaces`, namespace_storage.cpp:94-97. -/
def hasChild (t : Trie E V) (p : List E) : Bool := !(t.longestMatch p).2

/-- `size`, namespace_storage.cpp:137. -/
def nsSize (t : Trie E V) : Int := t.size

end Verif.Trie
