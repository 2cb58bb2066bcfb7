import Verif.Py.Model
import Verif.Cursor.Model
import Verif.Query.SortModel
/-!
Model of the cursor of the Python interface (integration/python/sql/wrapper_cursor.cpp, integration/python/main.cpp:93-112),
on top of the cursor of `Cursor/Model`.

Simplifications: a document pointer is `Option`, `none` is the null pointer; how a document or a field of it is made a
Python object (`from_document`, `from_object`, `to_json`) is a parameter, `Py/Model` has the first; `execute`, which puts
another answer in the place of this one, is left out.
-/
namespace Verif.Py
open Verif Verif.Cursor

abbrev PCur := Cur (Option Query.Doc)

/-- What is made of a document: `from_document`, `from_object` and `to_json`. -/
structure Reader (X : Type) where
  whole : Query.Doc → Res X
  field : Query.Doc → Bytes → Res X
  json : Query.Doc → Res X

/-- The argument of `cursor[...]`. -/
inductive Key where
  | text (k : Bytes)
  | int (i : Int)
  | other

/-- A call from Python; `sort` is separate. -/
inductive PCall where
  | next
  | len
  | hasNext
  | item (k : Key)
  | repr
  | close

/-- What a call gives: the cursor itself, `StopIteration`, a number, a truth value, something read from a document, another
exception, `None`. -/
inductive POut (X : Type) where
  | self
  | stop
  | num (n : Nat)
  | bool (b : Bool)
  | value (x : X)
  | raised
  | nothing

/-- An exception of C++ becomes one of Python, and the program can go on. -/
def caught {X : Type} (r : Res X) : Res (POut X) :=
  match r with
  | .ok x => .ok (.value x)
  | .throws => .ok .raised
  | .ub => .ub
  | .diverges => .diverges

/-- The use of a document pointer: `document->...` of a null pointer is undefined (convert.cpp:146-148, 151,
wrapper_cursor.cpp:88), `document_data_.at` may throw. -/
def onDoc {X : Type} (p : Res (Option (Option Query.Doc))) (f : Query.Doc → Res X) : Res (POut X) :=
  match p with
  | .ok (some (some d)) => caught (f d)
  | .ok _ => .ub
  | .throws => .ok .raised
  | .ub => .ub
  | .diverges => .diverges

/-- `next`, wrapper_cursor.cpp:15-20: `StopIteration` if the pointer is null; `current_index_` is increased before
`at` throws. -/
def pnext {X : Type} (c : PCur) : Res (POut X × PCur) :=
  c.after.bind fun i =>
    match c.getAt i.toNat with
    | .ok (some (some _)) => .ok (.self, { c with cur := i })
    | .ok _ => .ok (.stop, { c with cur := i })
    | .throws => .ok (.raised, { c with cur := i })
    | .ub => .ub
    | .diverges => .diverges

/-- `get`, wrapper_cursor.cpp:26-34, 104-106: `cast<std::size_t>` throws for what is no `size_t`; for another key the null
object is returned, which pybind11 reports as an error. -/
def item {X : Type} (rd : Reader X) (c : PCur) : Key → Res (POut X)
  | .text k => onDoc c.get fun d => rd.field d k
  | .int i => if 0 ≤ i ∧ i < 2 ^ 64 then onDoc (c.getAt i.toNat) rd.whole else .ok .raised
  | .other => .ok .raised

/-- A call. `close`, wrapper_cursor.cpp:11, sets a flag nobody reads. -/
def pcall {X : Type} (rd : Reader X) (c : PCur) : PCall → Res (POut X × PCur)
  | .next => pnext c
  | .len => .ok (.num c.size, c)
  | .hasNext => c.hasNext.bind fun b => .ok (.bool b, c)
  | .item k => (item rd c k).bind fun o => .ok (o, c)
  | .repr => (onDoc c.get rd.json).bind fun o => .ok (o, c)
  | .close => .ok (.nothing, c)

/-- Calls one after the other. -/
def pcalls {X : Type} (rd : Reader X) : PCur → List PCall → Res (List (POut X) × PCur)
  | c, [] => .ok ([], c)
  | c, x :: xs => (pcall rd c x).bind fun r => (pcalls rd r.2 xs).bind fun q => .ok (r.1 :: q.1, q.2)

/-- `for d in cursor: body(d)` in Python: `__iter__` gives the cursor itself (wrapper_cursor.cpp:22), then `__next__` until
`StopIteration`; any other exception leaves the loop. At most `fuel` rounds. -/
def forIn {X : Type} (body : PCur → Res X) : Nat → PCur → Res (List X × PCur)
  | 0, _ => .diverges
  | n + 1, c => (pnext (X := X) c).bind fun r =>
    match r.1 with
    | .self => (body r.2).bind fun x => (forIn body n r.2).bind fun q => .ok (x :: q.1, q.2)
    | .stop => .ok ([], r.2)
    | _ => .throws

/-- A body that reads the fields `ks`, `[d[k] for k in ks]`. -/
def readFields {X : Type} (rd : Reader X) : List Bytes → PCur → Res (List X)
  | [], _ => .ok []
  | k :: ks, c => (item rd c (.text k)).bind fun o =>
    match o with
    | .value x => (readFields rd ks c).bind fun xs => .ok (x :: xs)
    | _ => .throws

/-! ### Sorting -/

/-- `int(order)`: `num` is Python's for what is neither an integer nor `None`; `none` is an exception. -/
def toInt (num : PyObj → Option Int) : PyObj → Option Int
  | .scalar (.int i) => some i
  | .scalar .none => none
  | o => num o

/-- `to_order`, convert.cpp:201-204. -/
def toOrder (num : PyObj → Option Int) (o : PyObj) : Res Bool :=
  match toInt num o with
  | none => .throws
  | some i => if -2 ^ 31 ≤ i ∧ i < 2 ^ 31 then .ok (decide (¬ i < 0)) else .throws

/-- The arguments of `sort`: a dictionary, or a key and a direction; keys as `str` gives them. -/
inductive SortArg where
  | dict (es : List (Bytes × PyObj))
  | key (k : Bytes) (order : PyObj)

/-- `to_sorter`, convert.cpp:193-199. -/
def toSorter (num : PyObj → Option Int) : List (Bytes × PyObj) → Res (List Query.SortKey)
  | [] => .ok []
  | e :: es => (toOrder num e.2).bind fun b => (toSorter num es).bind fun ks => .ok (⟨e.1, b⟩ :: ks)

/-- The sorter of the arguments, wrapper_cursor.cpp:90-97. -/
def sortKeys (num : PyObj → Option Int) : SortArg → Res (List Query.SortKey)
  | .dict es => toSorter num es
  | .key k o => (toOrder num o).bind fun b => .ok [⟨k, b⟩]

/-- `sort("k")`: the direction is `None`, main.cpp:110. -/
def SortArg.plain (k : Bytes) : SortArg := .key k (.scalar .none)

/-- `sorter_t::operator()` on pointers, sort/sort.hpp:28-41: null pointers are equal to everything. -/
def sorterP (ks : List Query.SortKey) : Option Query.Doc → Option Query.Doc → Res Bool
  | some a, some b => Query.sorter ks a b
  | _, _ => .ok false

/-- `sort`, wrapper_cursor.cpp:90-97 and cursor.cpp:91-94: a relation, as `std::sort` is. -/
def psort (num : PyObj → Option Int) (a : SortArg) (c : PCur) (r : Res PCur) : Prop :=
  match sortKeys num a with
  | .ok ks => ∃ o, Query.StdSort (sorterP ks) c.docs o ∧ r = o.bind fun ds => .ok { c with docs := ds, cur := -1 }
  | .throws => r = .throws
  | .ub => r = .ub
  | .diverges => r = .diverges

/-! ### Errors -/

/-- `error_code_t`, components/cursor/cursor.hpp:24-38. -/
inductive Code where
  | otherError | none | databaseAlreadyExists | databaseNotExists | collectionAlreadyExists | collectionNotExists | indexCreateFail
  | collectionDropped | sqlParseError | createPhysicalPlanError | schemaError | incompatibleStorageTypes
deriving DecidableEq

/-- The first part of `get_error`, wrapper_cursor.cpp:40-86: no case for three of them, and the text stays empty. -/
def Code.text : Code → String
  | .none => "none"
  | .databaseAlreadyExists => "database_already_exists"
  | .databaseNotExists => "database_not_exists"
  | .collectionAlreadyExists => "collection_already_exists"
  | .collectionNotExists => "collection_not_exists"
  | .collectionDropped => "collection_dropped"
  | .sqlParseError => "sql_parse_error"
  | .createPhysicalPlanError => "create_physical_plan_error"
  | .otherError => "other_error"
  | .indexCreateFail | .schemaError | .incompatibleStorageTypes => ""

end Verif.Py
