import Verif.Base.Res
/-!
Model of components/catalog/table_id.cpp (qualified table names) and of
components/base/collection_full_name.hpp. Strings are lists of characters; memory resources are left
out. `c_str()` conversions stop at a NUL character, as in the code.
-/
namespace Verif.TableId
open Verif

abbrev Str := List Char

/-- `std::string(s.c_str())`. -/
def cstr (s : Str) : Str := s.takeWhile (· ≠ '\x00')

/-- `str.find(delim, start)`: the text before the first delimiter and the text behind it. -/
def cut (d : Char) : Str → Option (Str × Str)
  | [] => none
  | c :: cs => if c = d then some ([], cs) else (cut d cs).map fun (a, b) => (c :: a, b)

theorem cut_length {d : Char} : ∀ {s a b : Str}, cut d s = some (a, b) → b.length < s.length := by
  intro s
  induction s with
  | nil => intro a b h; cases h
  | cons c cs ih =>
    intro a b h
    unfold cut at h
    split at h
    · cases h; simp
    · cases hc : cut d cs with
      | none => rw [hc] at h; cases h
      | some p =>
        rw [hc] at h
        obtain ⟨x, y⟩ := p
        simp only [Option.map_some, Option.some.injEq, Prod.mk.injEq] at h
        have := ih hc
        simp only [List.length_cons]
        rw [← h.2]; omega

/-- `split_namespace`, table_id.cpp:11-29: the last part is kept only if it is not empty. -/
def split (d : Char) (s : Str) : List Str :=
  match h : cut d s with
  | none => if s = [] then [] else [s]
  | some (a, b) => a :: split d b
termination_by s.length
decreasing_by exact cut_length h

/-- `table_id`, table_id.hpp:15-36. -/
structure TableId where
  ns : List Str
  name : Str
  deriving DecidableEq, Repr

/-- `table_id(resource, full_name)` from the list of parts, table_id.cpp:32-37: `back()` of an empty
vector is undefined. -/
def ofParts (parts : List Str) : Res TableId :=
  match parts.getLast? with
  | none => .ub
  | some n => .ok ⟨parts.dropLast, n⟩

/-- `table_id::parse`, table_id.cpp:67-69. -/
def parse (s : Str) : Res TableId := ofParts (split '.' s)

/-- The loop of `to_pmr_string`, table_id.cpp:88-92: the parts with dots between them. -/
def join : List Str → Str
  | [] => []
  | [p] => p
  | p :: q :: rest => p ++ '.' :: join (q :: rest)

/-- `to_pmr_string`, table_id.cpp:86-95; also what `hash` is computed from (table_id.hpp:40-45). -/
def print (t : TableId) : Str := join t.ns ++ '.' :: t.name

/-- `collection_full_name_t`, collection_full_name.hpp:12-37. -/
structure FullName where
  uid : Str
  database : Str
  schema : Str
  collection : Str
  deriving DecidableEq, Repr

/-- `table_id(resource, collection_full_name)`, table_id.cpp:44-61. -/
def ofFullName (f : FullName) : TableId :=
  let hasSchema := f.schema ≠ []
  let hasUid := f.uid ≠ []
  ⟨(if hasUid then [cstr f.uid] else []) ++ (if hasSchema ∨ hasUid then [cstr f.schema] else []) ++ [cstr f.database],
    f.collection⟩

/-- `collection_full_name`, table_id.cpp:74-86 with `name_from_vector`, 5-9: the last one, two or three
parts of the namespace are handed to the constructor with that many arguments. -/
def toFullName (t : TableId) : FullName :=
  match t.ns.reverse with
  | [] => ⟨[], [], [], cstr t.name⟩
  | [a] => ⟨[], cstr a, [], cstr t.name⟩
  | [b, a] => ⟨[], cstr a, cstr b, cstr t.name⟩
  | c :: b :: a :: _ => ⟨cstr a, cstr b, cstr c, cstr t.name⟩

/-- `operator<` of strings, lexicographic. -/
def strLt : Str → Str → Bool
  | _, [] => false
  | [], _ :: _ => true
  | a :: as, b :: bs => if a.toNat < b.toNat then true else if b.toNat < a.toNat then false else strLt as bs

/-- `operator<` on full names, collection_full_name.hpp:62-66. -/
def FullName.lt (a b : FullName) : Bool :=
  strLt a.uid b.uid || strLt a.database b.database ||
    (a.database == b.database && strLt a.schema b.schema) ||
    (a.database == b.database && a.schema == b.schema && strLt a.collection b.collection)

end Verif.TableId
