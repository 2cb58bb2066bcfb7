import Verif.Cursor.Model
import Verif.Update.Model
import Verif.Oid.Model
import Verif.Json.Spec
/-!
Model of the C interface, integration/c/main.cpp: objects on the heap behind untyped handles, the answers walked through
them, and the documents read through them.

Simplifications: a handle is the number of the object among those of its kind, so handles of different kinds are not
confused and an object deleted stays deleted; assertions are compiled out; what the engine answers to a statement is given
with the call; the trees of documents are those at the time of the call; any use of a cursor or document after its
database was destroyed is undefined, since their memory comes from the database's resource.
-/
namespace Verif.CApi

open Verif.DocVal Verif.Num Verif.PhysKey Verif.LogVal

/-- What the engine answers to `execute_sql`, `create_database`, `create_collection`: documents (a null pointer is `none`),
rows or types, only a status, or an error; the constructors of `cursor_t`, components/cursor/cursor.cpp:13-59. -/
inductive Answer where
  | documents (ds : List (Option Json.Node))
  | rows (n : Nat)
  | status (success : Bool)
  | error (code : Int) (what : Bytes)

/-- `cursor_storage_t`, main.cpp:16-19, and what is needed of `cursor_t`. -/
structure CursorObj where
  space : Nat
  cur : Cursor.Cur (Option Json.Node)
  success : Bool
  code : Int
  what : Bytes

/-- `document_storage_t`, main.cpp:21-24: the pointer may be null. -/
structure DocObj where
  space : Nat
  node : Option Json.Node

/-- The heap: which databases exist, the cursors and documents not deleted yet. -/
structure St where
  spaces : List Bool
  curs : List (Option CursorObj)
  docs : List (Option DocObj)

def St.init : St := ⟨[], [], []⟩

/-- A place in a document, `..._by_key` or `..._by_index`. -/
inductive Path where
  | key (k : Bytes)
  | index (i : Int)

/-- `std::to_string(static_cast<uint32_t>(index))` or the key, main.cpp:214-405. -/
def Path.text : Path → Bytes
  | .key k => k
  | .index i => Json.decimal (wrap .u32 i).toNat

/-- The questions `document_is_..._by_...`. -/
inductive Kind where
  | exist | null | bool | ulong | long | double | string | array | dict

/-- The calls. -/
inductive Call where
  | create
  | destroy (db : Nat)
  | execute (db : Nat) (a : Answer)
  | releaseCursor (c : Nat)
  | size (c : Nat)
  | hasNext (c : Nat)
  | next (c : Nat)
  | get (c : Nat)
  | getByIndex (c : Nat) (i : Int)
  | isSuccess (c : Nat)
  | isError (c : Nat)
  | getError (c : Nat)
  | releaseDocument (d : Nat)
  | id (d : Nat)
  | isValid (d : Nat)
  | isArray (d : Nat)
  | isDict (d : Nat)
  | count (d : Nat)
  | is (k : Kind) (d : Nat) (p : Path)
  | getBool (d : Nat) (p : Path)
  | getUlong (d : Nat) (p : Path)
  | getLong (d : Nat) (p : Path)
  | getDouble (d : Nat) (p : Path)
  | getString (d : Nat) (p : Path)
  | getArray (d : Nat) (p : Path)
  | getDict (d : Nat) (p : Path)

/-- What a call returns. -/
inductive Ret where
  | nothing
  | handle (h : Nat)
  | bool (b : Bool)
  | int (v : Int)
  | double (f : FVal)
  | text (s : Bytes)
  | error (code : Int) (what : Bytes)
deriving DecidableEq

/-- `strcpy` of a string into a buffer of `cap` bytes, main.cpp:176-177, 189-190, 362-363: the bytes before the first zero
and a zero; beyond the buffer it is undefined.  The result is the text a C program sees. -/
def strcpy (cap : Nat) (s : Bytes) : Res Bytes :=
  let c := s.takeWhile (· != 0)
  if cap < c.length + 1 then .ub else .ok c

/-- `sizeof(std::string)` and `sizeof(std::pmr::string)` of libstdc++ on 64 bits. -/
def sizeofString : Nat := 32
def sizeofPmrString : Nat := 40

/-- The cursor of an answer, cursor.cpp:13-59; `current_index_` begins at -1 (cursor.hpp:66). -/
def Answer.cur : Answer → Cursor.Cur (Option Json.Node)
  | .documents ds => Cursor.ofDocuments ds
  | .rows n => Cursor.ofRows n
  | .status _ => Cursor.ofDocuments []
  | .error _ _ => Cursor.ofDocuments []

/-- `success_` and `error_`, cursor.cpp:13-59; `error_code_t::none` is 0 (cursor.hpp). -/
def Answer.success : Answer → Bool
  | .status b => b
  | .error _ _ => false
  | _ => true

def Answer.code : Answer → Int
  | .error c _ => c
  | _ => 0

def Answer.what : Answer → Bytes
  | .error _ w => w
  | _ => []

/-- A use of a database handle, `convert_otterbrix`, main.cpp:36-41: a deleted one is undefined. -/
def St.space (s : St) (h : Nat) : Res Unit :=
  match s.spaces[h]? with
  | some true => .ok ()
  | _ => .ub

/-- A use of a cursor, `convert_cursor`, main.cpp:43-48. -/
def St.cursor (s : St) (h : Nat) : Res CursorObj :=
  match s.curs[h]? with
  | some (some c) => (s.space c.space).bind fun _ => .ok c
  | _ => .ub

/-- A use of a document storage, `convert_document`, main.cpp:50-55. -/
def St.document (s : St) (h : Nat) : Res DocObj :=
  match s.docs[h]? with
  | some (some d) => (s.space d.space).bind fun _ => .ok d
  | _ => .ub

/-- `doc_storage->document->...`: a null pointer is dereferenced. -/
def St.tree (s : St) (h : Nat) : Res Json.Node :=
  (s.document h).bind fun d => match d.node with
    | some n => .ok n
    | none => .ub

/-- A new document storage, main.cpp:137-140. -/
def St.give (s : St) (space : Nat) (n : Option Json.Node) : Ret × St :=
  (.handle s.docs.length, { s with docs := s.docs ++ [some ⟨space, n⟩] })

/-- `document_ptr` of an element of the cursor or of nothing: both are null pointers. -/
def flat : Option (Option Json.Node) → Option Json.Node
  | some d => d
  | none => none

/-- The value at a path for `is_as` and `get_as`, components/document/document.hpp:142-165. -/
def leafAt (n : Json.Node) (p : Bytes) : Res (Option V) :=
  (Json.findNode n p).bind fun
    | .node (.leaf v) => .ok (some v)
    | _ => .ok none

/-- `is_as<T>`, document.hpp:142-152. -/
def isAs {α : Type} (get : V → Res α) (n : Json.Node) (p : Bytes) : Res Bool :=
  (leafAt n p).bind fun
    | some v => isT (get v)
    | none => .ok false

/-- `is_null`, `is_array`, `is_dict` and the other questions, components/document/document.cpp:65-115. -/
def isKind (n : Json.Node) (p : Bytes) : Kind → Res Bool
  | .exist => Json.exists? n p
  | .null => (leafAt n p).bind fun
    | some .na => .ok true
    | _ => .ok false
  | .bool => isAs V.getBool n p
  | .ulong => isAs (V.getInt .u64) n p
  | .long => isAs (V.getInt .i64) n p
  | .double => isAs V.getDouble n p
  | .string => isAs V.getStr n p
  | .array => (Json.findNode n p).bind fun
    | .node (.arr _) => .ok true
    | _ => .ok false
  | .dict => (Json.findNode n p).bind fun
    | .node (.obj _) => .ok true
    | _ => .ok false

/-- `get_array`, document.cpp:147-154: a null pointer if there is no array. -/
def arrayAt (n : Json.Node) (p : Bytes) : Res (Option Json.Node) :=
  (Json.findNode n p).bind fun
    | .node (.arr xs) => .ok (some (.arr xs))
    | _ => .ok none

/-- `get_dict`, document.cpp:156-163. -/
def dictAt (n : Json.Node) (p : Bytes) : Res (Option Json.Node) :=
  (Json.findNode n p).bind fun
    | .node (.obj fs) => .ok (some (.obj fs))
    | _ => .ok none

/-- The text `/_id`. -/
def idPath : Bytes := [47, 95, 105, 100]

/-- `get_document_id(document).to_string()`, document.cpp:1008. -/
def docId (n : Json.Node) : Res Bytes := (Update.getAs [] V.getStr n idPath).bind fun s => .ok (Oid.text (Oid.init s))

/-- One call. -/
def step (s : St) : Call → Res (Ret × St)
  -- otterbrix_create, main.cpp:58-73
  | .create => .ok (.handle s.spaces.length, { s with spaces := s.spaces ++ [true] })
  -- otterbrix_destroy, main.cpp:75-80
  | .destroy h => (s.space h).bind fun _ => .ok (.nothing, { s with spaces := s.spaces.set h false })
  -- execute_sql, create_database, create_collection, main.cpp:82-117
  | .execute h a => (s.space h).bind fun _ =>
    .ok (.handle s.curs.length, { s with curs := s.curs ++ [some ⟨h, a.cur, a.success, a.code, a.what⟩] })
  -- release_cursor, main.cpp:119-123
  | .releaseCursor h => (s.cursor h).bind fun _ => .ok (.nothing, { s with curs := s.curs.set h none })
  -- cursor_size, main.cpp:125-128
  | .size h => (s.cursor h).bind fun c => .ok (.int (wrap .i32 c.cur.size), s)
  -- cursor_has_next, main.cpp:130-133
  | .hasNext h => (s.cursor h).bind fun c => c.cur.hasNext.bind fun b => .ok (.bool b, s)
  -- cursor_next, main.cpp:135-141
  | .next h => (s.cursor h).bind fun c => c.cur.next.bind fun r =>
    .ok (St.give { s with curs := s.curs.set h (some { c with cur := r.2 }) } c.space (flat r.1))
  -- cursor_get, main.cpp:143-149
  | .get h => (s.cursor h).bind fun c => c.cur.get.bind fun d => .ok (s.give c.space (flat d))
  -- cursor_get_by_index, main.cpp:151-157
  | .getByIndex h i => (s.cursor h).bind fun c => (c.cur.getAt (wrap .u64 i).toNat).bind fun d => .ok (s.give c.space (flat d))
  -- cursor_is_success, main.cpp:159-162
  | .isSuccess h => (s.cursor h).bind fun c => .ok (.bool c.success, s)
  -- cursor_is_error, main.cpp:164-167
  | .isError h => (s.cursor h).bind fun c => .ok (.bool (!c.success), s)
  -- cursor_get_error, main.cpp:169-178
  | .getError h => (s.cursor h).bind fun c => (strcpy sizeofString c.what).bind fun m => .ok (.error (wrap .i32 c.code) m, s)
  -- release_document, main.cpp:180-184
  | .releaseDocument h => (s.document h).bind fun _ => .ok (.nothing, { s with docs := s.docs.set h none })
  -- document_id, main.cpp:186-192
  | .id h => (s.tree h).bind fun n => (docId n).bind fun t => (strcpy sizeofString t).bind fun m => .ok (.text m, s)
  -- document_is_valid, document_is_array, document_is_dict, document_count, main.cpp:194-212
  | .isValid h => (s.tree h).bind fun _ => .ok (.bool true, s)
  | .isArray h => (s.tree h).bind fun n => (isKind n [] .array).bind fun b => .ok (.bool b, s)
  | .isDict h => (s.tree h).bind fun n => (isKind n [] .dict).bind fun b => .ok (.bool b, s)
  | .count h => (s.tree h).bind fun n => (Json.count n []).bind fun k => .ok (.int (wrap .i32 k), s)
  -- document_is_..._by_key, document_is_..._by_index, main.cpp:214-311
  | .is k h p => (s.tree h).bind fun n => (isKind n p.text k).bind fun b => .ok (.bool b, s)
  -- document_get_..._by_key, document_get_..._by_index, main.cpp:313-355
  | .getBool h p => (s.tree h).bind fun n => (Update.getAs false V.getBool n p.text).bind fun b => .ok (.bool b, s)
  | .getUlong h p => (s.tree h).bind fun n => (Update.getAs 0 (V.getInt .u64) n p.text).bind fun v => .ok (.int v, s)
  | .getLong h p => (s.tree h).bind fun n => (Update.getAs 0 (V.getInt .i64) n p.text).bind fun v => .ok (.int v, s)
  | .getDouble h p => (s.tree h).bind fun n => (Update.getAs (.fin 0) V.getDouble n p.text).bind fun v => .ok (.double v, s)
  -- document_get_string_by_key, document_get_string_by_index, main.cpp:357-372
  | .getString h p => (s.tree h).bind fun n => (Update.getAs [] V.getStr n p.text).bind fun t =>
    (strcpy sizeofPmrString t).bind fun m => .ok (.text m, s)
  -- document_get_array_by_key ... document_get_dict_by_index, main.cpp:374-404
  | .getArray h p => (s.document h).bind fun d => (s.tree h).bind fun n => (arrayAt n p.text).bind fun x => .ok (s.give d.space x)
  | .getDict h p => (s.document h).bind fun d => (s.tree h).bind fun n => (dictAt n p.text).bind fun x => .ok (s.give d.space x)

/-- The results of a list of calls. -/
def run (s : St) : List Call → Res (List Ret)
  | [] => .ok []
  | c :: cs => (step s c).bind fun r => (run r.2 cs).bind fun rs => .ok (r.1 :: rs)

end Verif.CApi
