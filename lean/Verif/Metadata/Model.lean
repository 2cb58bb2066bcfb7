import Verif.TableId.Model
/-!
Model of services/disk/metadata.{hpp,cpp}: the list of databases and collections kept in the file
METADATA. `std::unordered_map` is an association list without duplicate keys; the order in which
`flush_` walks it is unspecified, so every flush takes its order as an argument. The file is its
contents; a flush replaces them (write at 0, then truncate), except where a crash is modelled.
-/
namespace Verif.Metadata
open Verif Verif.TableId

/-- `data_t`, metadata.hpp:17. -/
abbrev Data := List (Str × List Str)

/-- `data_.find(database)`. -/
def find (d : Data) (db : Str) : Option (List Str) := (d.find? (fun p => p.1 == db)).map (·.2)

/-- `append_database` without the flush, metadata.cpp:31-40. -/
def appendDatabase (d : Data) (db : Str) : Data × Bool :=
  match find d db with
  | none => (d ++ [(db, [])], true)
  | some _ => (d, false)

/-- `remove_database` without the flush, metadata.cpp:42-48. -/
def removeDatabase (d : Data) (db : Str) : Data × Bool :=
  match find d db with
  | none => (d, false)
  | some _ => (d.filter (fun p => p.1 != db), true)

/-- The stored list of one database is replaced. -/
def update (d : Data) (db : Str) (cols : List Str) : Data := d.map fun p => if p.1 == db then (p.1, cols) else p

/-- `append_collection` without the flush, metadata.cpp:58-71. -/
def appendCollection (d : Data) (db col : Str) : Data × Bool :=
  match find d db with
  | none => (d, false)
  | some cols => if col ∈ cols then (d, false) else (update d db (cols ++ [col]), true)

/-- `remove_collection` without the flush, metadata.cpp:73-87. -/
def removeCollection (d : Data) (db col : Str) : Data × Bool :=
  match find d db with
  | none => (d, false)
  | some cols => if col ∈ cols then (update d db (cols.filter (· != col)), true) else (d, false)

/-- One line written by `flush_`, metadata.cpp:124-128. -/
def renderLine (p : Str × List Str) : Str := p.1 ++ ':' :: (p.2.flatMap fun c => c ++ [';']) ++ ['\n']

/-- `flush_`, metadata.cpp:121-132. -/
def render (d : Data) : Str := d.flatMap renderLine

/-- The inner loop of the constructor, metadata.cpp:105-110: the `;`-terminated pieces of the rest of
the line (a `;` counts only before the first newline). -/
def readCollections (db : Str) (line : Str) (d : Data) : Data :=
  match h : cut ';' line with
  | none => d
  | some (col, rest) => readCollections db rest (appendCollection d db col).1
termination_by line.length
decreasing_by exact cut_length h

/-- The outer loop of the constructor, metadata.cpp:98-117, from `pos_new_line` on. -/
def readLines (text : Str) (d : Data) : Data :=
  match h : cut ':' text with
  | none => d
  | some (db, rest) =>
    match h2 : cut '\n' rest with
    | none => readCollections db rest (appendDatabase d db).1
    | some (line, rest') => readLines rest' (readCollections db line (appendDatabase d db).1)
termination_by text.length
decreasing_by
  have h1 := cut_length h
  have h3 := cut_length h2
  omega

/-- The constructor, metadata.cpp:89-118. -/
def load (file : Str) : Data := readLines file []

/-- The object and its file. -/
structure State where
  data : Data
  file : Str

/-- A call (with `is_flush = true`, the default), or a restart. -/
inductive Op where
  | appendDb (db : Str)
  | removeDb (db : Str)
  | appendCol (db col : Str)
  | removeCol (db col : Str)
  | reopen

/-- `if (is_flush && result) flush_()`: `r` is what the call did to the map and its answer; `ord` is the
order in which the map is walked by the flush. -/
def save (s : State) (ord : Data → Data) (r : Data × Bool) : State × Bool :=
  (⟨r.1, if r.2 then render (ord r.1) else s.file⟩, r.2)

/-- One call. -/
def step (s : State) (op : Op) (ord : Data → Data) : State × Bool :=
  match op with
  | .appendDb db => save s ord (appendDatabase s.data db)
  | .removeDb db => save s ord (removeDatabase s.data db)
  | .appendCol db col => save s ord (appendCollection s.data db col)
  | .removeCol db col => save s ord (removeCollection s.data db col)
  | .reopen => (⟨load s.file, s.file⟩, true)

/-- A history on a new file. -/
def run (s : State) : List (Op × (Data → Data)) → State × List Bool
  | [] => (s, [])
  | (op, ord) :: rest =>
    let r := step s op ord
    let r' := run r.1 rest
    (r'.1, r.2 :: r'.2)

end Verif.Metadata
