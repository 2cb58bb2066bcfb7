import Verif.DocSchema.Model
/-!
Specification for C104: what a schema is to say of the documents, and which histories are well-behaved.
-/
namespace Verif.DocSchema
variable {E V C : Type} [LinearOrder E] [DecidableEq V] [DecidableEq C]

/-- Some document of the collection has the field with the type. -/
def Has (s : Sys E V C) (c : C) (name : List E) (ty : V) : Prop := ∃ d ∈ s.store c, (name, ty) ∈ d.fields

/-- All that was executed has reached the schemas. -/
def Settled (s : Sys E V C) : Prop := s.done = [] ∧ s.logged = []

/-- A delete is on its way from the executor to the catalog. -/
def Deleting (s : Sys E V C) : Prop := (∃ c t, (c, Done.delete t) ∈ s.done) ∨ ∃ c, (c, Logged.delete) ∈ s.logged

/-- A plan whose effect the schema can follow, in the state in which it is executed: an insert of documents with new and different `_id`s; a delete while no
other delete is on its way; an update that leaves the names and types of the fields as they are. -/
def Followed (s : Sys E V C) (c : C) : Plan E V → Prop
  | .insert docs => (docs.map Doc.id).Nodup ∧ ∀ d ∈ docs, ∀ e ∈ s.store c, e.id ≠ d.id
  | .delete _ => ¬ Deleting s
  | .update g => ∀ d ∈ s.store c, ∀ fs, g d = some fs → fs = d.fields

/-- The history of such plans, handled in any order, without restarts. -/
def FollowedAll (es : List (Event E V C)) : Prop :=
  Event.restart ∉ es ∧ ∀ es₁ c p es₂, es = es₁ ++ .exec c p :: es₂ → Followed (run init es₁) c p

/-- The fields of the inserted documents. -/
def Inserted (es : List (Event E V C)) (name : List E) (ty : V) : Prop :=
  ∃ c docs, Event.exec c (.insert docs) ∈ es ∧ ∃ d ∈ docs, (name, ty) ∈ d.fields

/-- No name begins with what is left of another one without its last letter, unless both have the same length. -/
def NamesApart (es : List (Event E V C)) : Prop :=
  ∀ n ty m ty', Inserted es n ty → Inserted es m ty' → n.dropLast <+: m → m.length = n.length

end Verif.DocSchema
