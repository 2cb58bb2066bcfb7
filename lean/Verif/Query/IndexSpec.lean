import Verif.Query.IndexModel
import Verif.Query.WriteSpec
import Verif.DocVal.Spec
/-!
What C20 and C21 say.
-/
namespace Verif.Query

open Verif.DocVal Verif.LogVal Verif.PhysKey

/-- The field is missing, or its value is of the kind. -/
def FieldIn (k : Kind) (f : Bytes) (d : Doc) : Prop := d.get f = .missing ∨ ∃ v, d.get f = .scalar v ∧ k.has v

/-- The entry of a document. -/
def entryOf (f : Bytes) (d : Doc) : Option Entry :=
  match d.get f with
  | .scalar v => some ⟨logical v, d⟩
  | _ => none

/-- The entries a collection should have. -/
def entriesOf (f : Bytes) (ds : List Doc) : List Entry := ds.filterMap (entryOf f)

/-- The index has the entries of the documents of the collection, each once, in some order. -/
def Tracks (f : Bytes) (c : IColl) : Prop := c.index.Perm (entriesOf f c.store)

/-- Entries in order of their keys. -/
def KeyOrder (es : List Entry) : Prop := es.Pairwise fun a b => LV.lt b.key a.key = false

/-- The document has the field and its value is equal to `v`. -/
def HasValue (f : Bytes) (v : V) (d : Doc) : Prop := ∃ w, d.get f = .scalar w ∧ compareV w v = .ok .eq

instance (f : Bytes) (v : V) (d : Doc) : Decidable (HasValue f v d) :=
  match h : d.get f with
  | .scalar w => if hw : compareV w v = .ok .eq then isTrue ⟨w, h, hw⟩ else isFalse (by
      rintro ⟨w', h1, h2⟩; rw [h] at h1; injection h1 with h1; subst h1; exact hw h2)
  | .missing => isFalse (by rintro ⟨w, h1, _⟩; rw [h] at h1; cases h1)
  | .container => isFalse (by rintro ⟨w, h1, _⟩; rw [h] at h1; cases h1)

/-- What a step is applied to in a history: a new document, a stored one, a stored one and its successor. -/
def okOp (k : Kind) (f : Bytes) (c : IColl) : IOp → Prop
  | .insert d => byId c.store d.id = none ∧ FieldIn k f d
  | .delete d => byId c.store d.id = some d
  | .update d d' => byId c.store d.id = some d ∧ d'.id = d.id ∧ FieldIn k f d'

/-- Such a history. -/
def Legal (k : Kind) (f : Bytes) : IColl → List IOp → Prop
  | _, [] => True
  | c, o :: os => okOp k f c o ∧ ∀ c', istep f c o = .ok c' → Legal k f c' os

/-- No other document has the value of a document that is deleted or updated. -/
def aloneOp (f : Bytes) (c : IColl) : IOp → Prop
  | .insert _ => True
  | .delete d => ∀ v, d.get f = .scalar v → ∀ x ∈ c.store, HasValue f v x → x = d
  | .update d _ => ∀ v, d.get f = .scalar v → ∀ x ∈ c.store, HasValue f v x → x = d

/-- A history in which this holds at each step. -/
def Alone (f : Bytes) : IColl → List IOp → Prop
  | _, [] => True
  | c, o :: os => aloneOp f c o ∧ ∀ c', istep f c o = .ok c' → Alone f c' os

/-- Full claim of C20. -/
def C20_claim : Prop := ∀ (f : Bytes) (cl : IColl) (env : Env) (c : Cmp) (rhs : Rhs) (k : Kind), Sorted cl.store → Tracks f cl →
  KeyOrder cl.index → (∀ d ∈ cl.store, FieldIn k f d) → (∀ n v, env.params n = some v → k.has v) → cl.store.length < 2 ^ 31 →
  ∃ out, indexScan (-1) env c rhs cl.index = .ok (some out) ∧ out.Perm (accepted (pred env (.leaf (.cmp c f rhs))) cl.store)

/-- Full claim of C21. -/
def C21_claim : Prop := ∀ (k : Kind) (f : Bytes) (os : List IOp), Legal k f ⟨[], []⟩ os →
  ∃ c, irun f ⟨[], []⟩ os = .ok c ∧ ∀ v, k.has v → ((equalTo (logical v) c.index).map Entry.doc).Perm (c.store.filter (HasValue f v ·))

end Verif.Query
