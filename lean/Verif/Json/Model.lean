import Verif.DocVal.Model
/-!
Model of documents as trees (components/document/document.cpp, json_trie_node.cpp, container/json_object.cpp,
container/json_array.cpp, string_splitter.cpp).

Simplifications: a document is its tree; nodes shared between documents or within one (after `copy` and `merge`, or
through `get_dict`) are not modelled; an object is a list of fields without repeated names, its order (that of a hash map)
is not observed; a scalar is its value (the tape is the subject of `Verif.DocVal`); texts of paths are followed by a zero
byte, as those of a `std::string` are.
-/
namespace Verif.Json

open Verif.DocVal

/-- `json_trie_node`, json_trie_node.hpp: a value, an object, an array or a mark for deletion. -/
inductive Node where
  | leaf (v : V)
  | obj (fs : List (Bytes × Node))
  | arr (xs : List Node)
  | del

/-! ### paths -/

/-- The characters of paths. -/
def slash : UInt8 := 47
def tilde : UInt8 := 126
def char0 : UInt8 := 48
def char1 : UInt8 := 49

/-- `unescape_key_`, document.cpp:922-950: each `~0` and `~1` from left to right, anything else after `~` is an error
(also the zero byte after the end); the search goes on after the replacement. -/
def unescape : Bytes → Option Bytes
  | [] => some []
  | c :: r =>
    if c = tilde then
      match r with
      | [] => none
      | e :: r' =>
        if e = char0 then (unescape r').map (tilde :: ·)
        else if e = char1 then (unescape r').map (slash :: ·)
        else none
    else (unescape r).map (c :: ·)

/-- `string_splitter`, string_splitter.cpp:17-31: the pieces between slashes, at least one. -/
def split : Bytes → List Bytes
  | [] => [[]]
  | c :: r =>
    if c = slash then [] :: split r
    else match split r with
      | [] => [[c]]
      | p :: ps => (c :: p) :: ps

/-- `atol`: digits. -/
def digits : Bytes → Nat → Nat
  | [], n => n
  | c :: r, n => if 48 ≤ c ∧ c ≤ 57 then digits r (10 * n + (c.toNat - 48)) else n

/-- `atol`: blanks, a sign, digits; undefined beyond the range of `long`. -/
def atolSigned (s : Bytes) : Res Int :=
  let v : Int := match s with
    | [] => 0
    | c :: r => if c = 45 then -(digits r 0 : Int) else if c = 43 then (digits r 0 : Int) else (digits (c :: r) 0 : Int)
  if -2 ^ 63 ≤ v ∧ v < 2 ^ 63 then .ok v else .ub
def atol : Bytes → Res Int
  | [] => .ok 0
  | c :: r => if c = 32 ∨ (9 ≤ c ∧ c ≤ 13) then atol r else atolSigned (c :: r)

/-! ### reading -/

/-- `json_object::get`, json_object.cpp:53-59. -/
def lookN (fs : List (Bytes × Node)) (k : Bytes) : Option Node :=
  match fs with
  | [] => none
  | (n, c) :: fs => if n = k then some c else lookN fs k

/-- The outcomes of looking for a node, `impl::error_code_t`. -/
inductive Found where
  | node (n : Node)
  | noElement
  | badPointer

/-- The loop of `find_node_const`, document.cpp:394-411.  `atol` of the piece reads up to the next slash or the end; a
negative number is a huge index. -/
def find (n : Node) : List Bytes → Res Found
  | [] => .ok (.node n)
  | p :: ps =>
    match n with
    | .obj fs => match unescape p with
      | none => .ok .badPointer
      | some k => match lookN fs k with
        | none => .ok .noElement
        | some c => find c ps
    | .arr xs => (atol p).bind fun i =>
      if 0 ≤ i then match xs[i.toNat]? with
        | none => .ok .noElement
        | some c => find c ps
      else .ok .noElement
    | _ => .ok .noElement

/-- `json_pointer.remove_prefix(1)` of one leading slash, document.cpp:391-393. -/
def strip : Bytes → Bytes
  | [] => []
  | c :: r => if c = slash then r else c :: r

/-- `find_node_const`, document.cpp:385-413. -/
def findNode (n : Node) (ptr : Bytes) : Res Found :=
  match ptr with
  | [] => .ok (.node n)
  | _ => find n (split (strip ptr))

/-! ### the place of a path -/

/-- `json_pointer.find_last_of('/')`. -/
def lastSlash : Bytes → Option Nat
  | [] => none
  | c :: r => match lastSlash r with
    | some i => some (i + 1)
    | none => if c = slash then some 0 else none

/-- What `find_container_key` gives: an error or a key or index in a container. -/
inductive Key where
  | name (k : Bytes)
  | index (i : Nat)
deriving DecidableEq, Repr

/-- The error codes of writing, `impl::error_code_t`. -/
inductive Err where
  | badPointer | noContainer | badIndex | noElement
deriving DecidableEq, Repr

/-- What a place is made of: the text of the path of the container and the key in it. -/
inductive Place where
  | at (container : Bytes) (key : Key)
  | error (e : Err)
deriving DecidableEq, Repr

/-- The end of `find_container_key`, document.cpp:434-458, with the container in hand: the key of an object is unescaped,
an index is cut to 32 bits and then to the length of the array. -/
def keyIn (cp : Bytes) (viewKey : Bytes) : Node → Res Place
  | .obj _ => match unescape viewKey with
    | none => .ok (.error .badPointer)
    | some k => .ok (.at cp (.name k))
  | .arr xs => (atol viewKey).bind fun i =>
    if i < 0 then .ok (.error .badIndex)
    else .ok (.at cp (.index (min (i.toNat % 2 ^ 32) (xs.length % 2 ^ 32))))
  | _ => .ok (.error .noContainer)

/-- `find_container_key`, document.cpp:415-459.  `json_pointer.at(pos)` throws for the empty path. -/
def findKey (n : Node) (ptr : Bytes) : Res Place :=
  let pos := (lastSlash ptr).getD 0
  let cp := ptr.take pos
  (findNode n cp).bind fun
    | .badPointer => .ok (.error .badPointer)
    | .noElement => .ok (.error .noContainer)
    | .node c =>
      match ptr[pos]? with
      | none => .throws
      | some ch => keyIn cp (if ch = slash then ptr.drop (pos + 1) else ptr) c

/-! ### writing -/

/-- `map_.at(key) = value` or `map_.emplace(key, value)`, document.cpp:310-333, json_object.cpp:61-76. -/
def setN (k : Bytes) (v : Node) : List (Bytes × Node) → List (Bytes × Node)
  | [] => [(k, v)]
  | (n, c) :: fs => if n = k then (k, v) :: fs else (n, c) :: setN k v fs

/-- `map_.erase(found)`, json_object.cpp:78-86. -/
def removeN (k : Bytes) : List (Bytes × Node) → List (Bytes × Node)
  | [] => []
  | (n, c) :: fs => if n = k then fs else (n, c) :: removeN k fs

/-- `json_array::set`, json_array.cpp:23-29: appends at or beyond the end. -/
def setA (i : Nat) (v : Node) (xs : List Node) : List Node := if i < xs.length then xs.set i v else xs ++ [v]

/-- Writing into a container, document.cpp:310-333. -/
def putIn (key : Key) (v : Node) : Node → Node
  | .obj fs => match key with
    | .name k => .obj (setN k v fs)
    | .index _ => .obj fs
  | .arr xs => match key with
    | .index i => .arr (setA i v xs)
    | .name _ => .arr xs
  | n => n

/-- Changing the node a path leads to: the nodes are mutable, the path is the one `find` follows. -/
def modify (f : Node → Node) (n : Node) : List Bytes → Node
  | [] => f n
  | p :: ps =>
    match n with
    | .obj fs => match unescape p with
      | none => .obj fs
      | some k => match lookN fs k with
        | none => .obj fs
        | some c => .obj (setN k (modify f c ps) fs)
    | .arr xs => match atol p with
      | .ok i => if 0 ≤ i then match xs[i.toNat]? with
          | none => .arr xs
          | some c => .arr (xs.set i.toNat (modify f c ps))
        else .arr xs
      | _ => .arr xs
    | n => n

/-- `modify` by the text of the path of the container. -/
def modifyPtr (f : Node → Node) (n : Node) (ptr : Bytes) : Node :=
  match ptr with
  | [] => f n
  | _ => modify f n (split (strip ptr))

/-- `document_t::set_`, document.cpp:310-333 (with a node), 335-358 (an empty object, an empty array, a mark for deletion),
and `set` of a value, document.hpp:245-279: the new document, or an error. -/
def setAt (n : Node) (ptr : Bytes) (v : Node) : Res (Node × Option Err) :=
  (findKey n ptr).bind fun
    | .error e => .ok (n, some e)
    | .at cp key => .ok (modifyPtr (putIn key v) n cp, none)

/-- What is removed, json_object.cpp:78-86, json_array.cpp:39-46. -/
def inContainer (key : Key) : Node → Option Node
  | .obj fs => match key with
    | .name k => lookN fs k
    | .index _ => none
  | .arr xs => match key with
    | .index i => xs[i]?
    | .name _ => none
  | _ => none

/-- The container without it. -/
def takeOut (key : Key) : Node → Node
  | .obj fs => match key with
    | .name k => .obj (removeN k fs)
    | .index _ => .obj fs
  | .arr xs => match key with
    | .index i => .arr (xs.eraseIdx i)
    | .name _ => .arr xs
  | n => n

/-- `document_t::remove_`, document.cpp:360-377: the document, what was removed or an error. -/
def removeAt (n : Node) (ptr : Bytes) : Res (Node × Option Err × Option Node) :=
  (findKey n ptr).bind fun
    | .error e => .ok (n, some e, none)
    | .at cp key =>
      (findNode n cp).bind fun
        | .node c => match inContainer key c with
          | none => .ok (n, some .noElement, none)
          | some x => .ok (modifyPtr (takeOut key) n cp, none, some x)
        | _ => .ok (n, some .noContainer, none)

/-- `document_t::move`, document.cpp:283-290: remove, then set. -/
def moveAt (n : Node) (src dst : Bytes) : Res (Node × Option Err) :=
  (removeAt n src).bind fun
    | (n', none, some x) => setAt n' dst x
    | (n', e, _) => .ok (n', e)

/-- `document_t::get_value`, document.cpp:661-680: by container and key; nothing for containers and errors. -/
def getValue (n : Node) (ptr : Bytes) : Res (Option V) :=
  (findKey n ptr).bind fun
    | .error _ => .ok none
    | .at cp key =>
      (findNode n cp).bind fun
        | .node c => match inContainer key c with
          | some (.leaf v) => .ok (some v)
          | _ => .ok none
        | _ => .ok none

/-- `document_t::is_exists`, document.cpp:65-67. -/
def exists? (n : Node) (ptr : Bytes) : Res Bool :=
  (findNode n ptr).bind fun
    | .node _ => .ok true
    | _ => .ok false

/-- `document_t::count`, document.cpp:51-63. -/
def count (n : Node) (ptr : Bytes) : Res Nat :=
  (findNode n ptr).bind fun
    | .node (.obj fs) => .ok fs.length
    | .node (.arr xs) => .ok xs.length
    | _ => .ok 0

/-! ### merge -/

mutual
/-- `json_trie_node::merge`, json_trie_node.cpp:150-169.  If the second node is an object and the first is not, the first
one is read as an object (160-164). -/
def merge (n1 : Node) : Node → Res Node
  | .obj fs2 => match n1 with
    | .obj fs1 => (mergeFields fs1 fs2).bind fun r => .ok (.obj (r ++ fs1.filter fun p => (lookN fs2 p.1).isNone))
    | _ => .ub
  | n2 => .ok n2
/-- First loop of `json_object::merge`, json_object.cpp:136-147: marks for deletion are skipped. -/
def mergeFields (fs1 : List (Bytes × Node)) : List (Bytes × Node) → Res (List (Bytes × Node))
  | [] => .ok []
  | (k, n2) :: fs2 => match n2 with
    | .del => mergeFields fs1 fs2
    | n2 => match lookN fs1 k with
      | none => (mergeFields fs1 fs2).bind fun r => .ok ((k, n2) :: r)
      | some n1 => (merge n1 n2).bind fun m => (mergeFields fs1 fs2).bind fun r => .ok ((k, m) :: r)
end

end Verif.Json
