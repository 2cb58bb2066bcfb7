import Verif.Trie.Model
import Verif.Base.Res
/-!
Model of the schema computed from the documents of a collection: components/catalog/computed_schema.cpp.

Simplifications:
* types are an arbitrary set `V` with equality; the code compares only the outer type (types.cpp:116-120), so `V` is the
  set of outer types;
* `existing_versions_` maps a name to a reference to the versions of the trie node of that name; here it is the list of
  the names, in the order they were added, and the versions are read in the trie (the order in which the code goes through
  the hash map is not specified);
* reference counts do not wrap around at 2^64.
-/
namespace Verif.CompSchema
open Verif.Trie

variable {E V : Type} [LinearOrder E] [DecidableEq V]

/-- `computed_schema`, computed_schema.hpp:33-34. -/
structure Schema (E V : Type) where
  fields : Trie E V
  names : List (List E)

/-- The constructor, computed_schema.cpp:4-6. -/
def Schema.empty : Schema E V := ⟨Trie.empty, []⟩

/-- The position of the first version with the type: `std::find_if`, computed_schema.cpp:72-77. -/
def Schema.versionOf (s : Schema E V) (name : List E) (ty : V) : Option Nat :=
  if name ∈ s.names then (((s.fields.versions name).find? fun v => v.val = ty).map Ver.id) else none

/-- `append`, computed_schema.cpp:8-18, with `try_use_refcout`, 65-96.  Second component: `fields_.insert` threw; then
the type is in the trie, but the name is not added and nothing refers to the version. -/
def Schema.append (s : Schema E V) (name : List E) (ty : V) : Schema E V × Bool :=
  match s.versionOf name ty with
  | some i => (⟨s.fields.touch name fun v => if v.id = i then ⟨v.id, v.refs + 1, v.val⟩ else v, s.names⟩, false)
  | none =>
    let t := s.fields.insert name ty
    if s.fields.insertThrows name ty then (⟨t, s.names⟩, true)
    else
      (⟨t.touch name fun v => if some v.id = (t.versions name).getLast?.map Ver.id then ⟨v.id, v.refs + 1, v.val⟩ else v,
        if name ∈ s.names then s.names else s.names ++ [name]⟩, false)

/-- `drop_n`, computed_schema.cpp:29-33, and `drop` (19-27) with `n = 1`; `release_n`, trie_containers.hpp:26. -/
def Schema.dropN (s : Schema E V) (name : List E) (ty : V) (n : Nat) : Schema E V :=
  match s.versionOf name ty with
  | some i =>
    let t := s.fields.touch name fun v => if v.id = i then ⟨v.id, max v.refs n - n, v.val⟩ else v
    if (t.versions name).any Ver.alive then ⟨t, s.names⟩
    else ⟨(t.erase name).1, s.names.erase name⟩
  | none => s

/-- `find_field_versions`, computed_schema.cpp:35-49; an unknown name is only asserted against. -/
def Schema.fieldVersions (s : Schema E V) (name : List E) : Res (List V) :=
  if name ∈ s.names then .ok (((s.fields.versions name).filter Ver.alive).map Ver.val) else .ub

/-- `latest_types_struct`, computed_schema.cpp:51-63: the fields with their types. -/
def Schema.latestTypes (s : Schema E V) : List (List E × V) :=
  s.names.filterMap fun name => match (s.fields.versions name).getLast? with
    | some v => if v.alive then some (name, v.val) else none
    | none => none

end Verif.CompSchema
