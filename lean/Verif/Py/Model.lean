import Verif.DocVal.Model
/-!
Model of the conversion between Python objects and documents (integration/python/sql/convert.cpp,
wrapper_collection.cpp).

Simplifications: a `str` is its UTF-8 encoding, or `badStr` if it has none (lone surrogates); the keys of a `dict` are
scalars (a `tuple` as a key is left out); an object of a document is a list of fields in the order they were put in, its
order (that of a hash map) is not observed by comparing two `dict`s; base64, the validity of UTF-8 and the conversion of
`float` to `double` are parameters; nodes shared between documents are left out.
-/
namespace Verif.Py

open Verif.DocVal Verif.LogVal

/-- A Python object that is no container; `none` is `None` and everything the interface has no case for. -/
inductive Scalar where
  | none
  | bool (b : Bool)
  | int (v : Int)
  | float (bits : UInt64)
  | bytes (b : Bytes)
  | str (s : Bytes)
  | badStr
deriving DecidableEq, Repr

/-- A Python object. -/
inductive PyObj where
  | scalar (x : Scalar)
  | list (xs : List PyObj)
  | tuple (xs : List PyObj)
  | dict (es : List (Scalar × PyObj))

/-- What is used of other libraries: `base64.b64encode`, whether bytes are UTF-8, `double(float)`, and `str` of an object
that is no text. -/
structure Lib where
  b64 : Bytes → Bytes
  utf8 : Bytes → Bool
  widen : UInt32 → UInt64
  text : Scalar → Bytes

/-- The value written for a scalar, convert.cpp:46-57 (and 30-42): nothing for `None`; `cast<int64_t>` throws beyond 64
bits, `cast<std::string>` throws without an encoding. -/
def scalarV (L : Lib) : Scalar → Res (Option V)
  | .none => .ok none
  | .bool b => .ok (some (.bool b))
  | .int v => if PhysKey.ITy.i64.fits v then .ok (some (.int .i64 v)) else .throws
  | .float b => .ok (some (.double b))
  | .bytes b => .ok (some (.str (L.b64 b)))
  | .str s => .ok (some (.str s))
  | .badStr => .throws

/-- `build_primitive`, convert.cpp:45-58: it is `noexcept`, an exception ends the process. -/
def buildPrim (L : Lib) (d : Tape) (x : Scalar) : Res Tape :=
  match scalarV L x with
  | .ok none => .ok d
  | .ok (some v) => .ok (build 0 d v)
  | _ => .ub

/-- A node of a document: `json_trie_node` (json_trie_node.hpp) with the index of its element on the tape. -/
inductive Trie where
  | el (i : Nat)
  | obj (fs : List (Nat × Trie))
  | arr (xs : List Trie)

/-- The last branch of `build_index`, convert.cpp:78-82: the element is the next one of the tape (impl/document.cpp:23),
whether something is written there or not. -/
def buildScalar (L : Lib) (d : Tape) (x : Scalar) : Res (Nat × Tape) :=
  (buildPrim L d x).bind fun d' => .ok (d.words.length, d')

/-- The text of a key: `json_trie_node_hash`, json_object.cpp:14-16. -/
def keyText (d : Tape) (i : Nat) : Res Bytes := (read d i).bind V.getStr

/-- Whether an object has a key: `json_trie_node_eq`, json_object.cpp:29-36. -/
def hasKey (d : Tape) (s : Bytes) : List (Nat × Trie) → Res Bool
  | [] => .ok false
  | (i, _) :: fs => (keyText d i).bind fun s' => if s' = s then .ok true else hasKey d s fs

/-- `json_object::set`, json_object.cpp:61-63: `emplace` keeps what is there. -/
def setField (d : Tape) (fs : List (Nat × Trie)) (k : Nat) (t : Trie) : Res (List (Nat × Trie)) :=
  (keyText d k).bind fun s => (hasKey d s fs).bind fun b => .ok (if b then fs else fs ++ [(k, t)])

/-- The two arguments of `set`, convert.cpp:69-70 and 91-92: C++ leaves open which is evaluated first; `rtl`: the value. -/
def buildPair {α : Type} (rtl : Bool) (L : Lib) (d : Tape) (k : Scalar) (value : Tape → Res (α × Tape)) : Res (Nat × α × Tape) :=
  if rtl then (value d).bind fun a => (buildScalar L a.2 k).bind fun b => .ok (b.1, a.1, b.2)
  else (buildScalar L d k).bind fun b => (value b.2).bind fun a => .ok (b.1, a.1, a.2)

mutual
/-- `build_index`, convert.cpp:60-84. -/
def buildIndex (rtl : Bool) (L : Lib) : PyObj → Tape → Res (Trie × Tape)
  | .scalar x, d => (buildScalar L d x).bind fun r => .ok (.el r.1, r.2)
  | .list xs, d => (buildItems rtl L xs d).bind fun r => .ok (.arr r.1, r.2)
  | .tuple xs, d => (buildItems rtl L xs d).bind fun r => .ok (.arr r.1, r.2)
  | .dict es, d => (buildFields rtl L es [] d).bind fun r => .ok (.obj r.1, r.2)
/-- The loop over a list, convert.cpp:74-77; `set` at the size appends (json_array.cpp:23-29). -/
def buildItems (rtl : Bool) (L : Lib) : List PyObj → Tape → Res (List Trie × Tape)
  | [], d => .ok ([], d)
  | x :: xs, d => (buildIndex rtl L x d).bind fun a => (buildItems rtl L xs a.2).bind fun r => .ok (a.1 :: r.1, r.2)
/-- The loop over a `dict`, convert.cpp:68-71 and 90-93; `fs` are the fields so far. -/
def buildFields (rtl : Bool) (L : Lib) : List (Scalar × PyObj) → List (Nat × Trie) → Tape → Res (List (Nat × Trie) × Tape)
  | [], fs, d => .ok (fs, d)
  | (k, v) :: es, fs, d =>
    (buildPair rtl L d k (buildIndex rtl L v)).bind fun r =>
    (setField r.2.2 fs r.1 r.2.1).bind fun fs' => buildFields rtl L es fs' r.2.2
end

/-- `to_document`, convert.cpp:86-99: the fields of the root of an empty document, and its tape. -/
def toDocument (rtl : Bool) (L : Lib) (es : List (Scalar × PyObj)) : Res (List (Nat × Trie) × Tape) :=
  buildFields rtl L es [] ⟨[], []⟩

/-- `py::str` of bytes: they must be UTF-8. -/
def pyStr (L : Lib) (s : Bytes) : Res Scalar := if L.utf8 s then .ok (.str s) else .throws

/-- `from_document` of an element, convert.cpp:101-123. -/
def fromValue (L : Lib) : V → Res Scalar
  | .bool b => .ok (.bool b)
  | .int t v => if t.signed then ((V.int t v).getInt .i64).bind fun n => .ok (.int n)
                else ((V.int t v).getInt .u64).bind fun n => .ok (.int n)
  | .float b => .ok (.float (L.widen b))
  | .double b => .ok (.float b)
  | .str s => pyStr L s
  | _ => .ok .none

mutual
/-- `from_document` of a node, convert.cpp:125-144. -/
def fromTrie (L : Lib) (d : Tape) : Trie → Res PyObj
  | .el i => (read d i).bind fun v => (fromValue L v).bind fun x => .ok (.scalar x)
  | .obj fs => (fromFields L d fs).bind fun es => .ok (.dict es)
  | .arr xs => (fromItems L d xs).bind fun ys => .ok (.list ys)
def fromItems (L : Lib) (d : Tape) : List Trie → Res (List PyObj)
  | [] => .ok []
  | x :: xs => (fromTrie L d x).bind fun y => (fromItems L d xs).bind fun ys => .ok (y :: ys)
def fromFields (L : Lib) (d : Tape) : List (Nat × Trie) → Res (List (Scalar × PyObj))
  | [] => .ok []
  | (k, t) :: fs => (keyText d k).bind fun s => (pyStr L s).bind fun k' => (fromTrie L d t).bind fun v =>
    (fromFields L d fs).bind fun es => .ok ((k', v) :: es)
end

/-- `_id`. -/
def idKey : Bytes := [95, 105, 100]

/-- `generate_document_id_if_not_exists`, wrapper_collection.cpp:17-21, with `document_t::set`, document.hpp:243-273: the
name, then the text. -/
def addId (id : Bytes) (fs : List (Nat × Trie)) (d : Tape) : Res (List (Nat × Trie) × Tape) :=
  (hasKey d idKey fs).bind fun b =>
  if b then .ok (fs, d)
  else
    let d1 := build 0 d (.str idKey)
    let d2 := build 0 d1 (.str id)
    (setField d2 fs d.words.length (.el d1.words.length)).bind fun fs' => .ok (fs', d2)

/-- The document `insert_one` sends, wrapper_collection.cpp:60-66; `id` is the generated text. -/
def inserted (rtl : Bool) (L : Lib) (id : Bytes) (es : List (Scalar × PyObj)) : Res (List (Nat × Trie) × Tape) :=
  (toDocument rtl L es).bind fun r => addId id r.1 r.2

/-- `from_document` of a document, convert.cpp:146-149. -/
def fromDocument (L : Lib) (doc : List (Nat × Trie) × Tape) : Res PyObj := fromTrie L doc.2 (.obj doc.1)

end Verif.Py
