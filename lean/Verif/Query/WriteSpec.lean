import Verif.Query.WriteModel
import Verif.Query.Spec
/-!
What C17 and C18 say.
-/
namespace Verif.Query

open Verif.DocVal

/-- A collection: documents in order of `_id`, each `_id` once. -/
def Sorted (ds : List Doc) : Prop := ds.Pairwise fun a b => a.id < b.id

/-- The document stored under an `_id`. -/
def byId (ds : List Doc) (i : Nat) : Option Doc := ds.find? fun d => d.id == i

/-- Full claim of C17 for the insert of a batch as it is: refused as a whole if an `_id` of it is stored, else every
document of it is stored under its `_id`, and no other document changes. -/
def C17_claim : Prop := ∀ store batch : List Doc, Sorted store →
  ((∃ d ∈ batch, (byId store d.id).isSome) → insertOp [] store batch = (store, none)) ∧
  ((∀ d ∈ batch, byId store d.id = none) → (∀ d ∈ batch, byId (insertOp [] store batch).1 d.id = some d) ∧
    ∀ i, (∀ d ∈ batch, d.id ≠ i) → byId (insertOp [] store batch).1 i = byId store i)

/-- Full claim of C18: the documents the filter accepts, at most the limit of them, are removed and reported. -/
def C18_claim : Prop := ∀ (lim : Int) (p : Doc → Res Bool) (store : List Doc), Sorted store → Defined p store → store.length < 2 ^ 31 →
  ∃ store' ids, deleteMatch lim p store = .ok (store', some ids) ∧ ids = (firstN lim (accepted p store)).map Doc.id ∧
    store' = store.filter fun d => decide (d.id ∉ ids)

/-- Full claim of C18 for a delete with another collection: the documents that match one of the other collection are the
accepted ones. -/
def C18_using_claim : Prop := ∀ (lim : Int) (p : Doc → Doc → Res Bool) (store other : List Doc), Sorted store → lim = -1 ∨ 0 < lim →
  (∀ l ∈ store, ∀ r ∈ other, ∃ b, p l r = .ok b) → store.length < 2 ^ 31 → other.length < 2 ^ 31 →
  ∃ store' ids, deleteUsing lim p store other = .ok (store', some ids) ∧
    ids = (firstN lim (store.filter fun l => other.any fun r => decide (p l r = .ok true))).map Doc.id ∧
    store' = store.filter fun d => decide (d.id ∉ ids)

end Verif.Query
