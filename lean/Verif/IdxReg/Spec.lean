import Verif.IdxReg.Model
/-!
What C79 says: an ideal database that remembers which collections and indexes there are.
-/
namespace Verif.IdxReg

/-- The ideal: collections, and the indexes that were created and not dropped. -/
structure Ideal where
  colls : List Coll := []
  defs : List Def := []

/-- What a client expects of an event: a name may be used once in a collection; what was created is there until it is dropped,
whatever happens to the process. -/
def Ideal.step (durable : Bool) (s : Ideal) : Event → Ideal × Option Reply
  | .mkColl c => if c ∈ s.colls then (s, some .error) else ({ s with colls := s.colls ++ [c] }, some .ok)
  | .rmColl c => if c ∈ s.colls then (⟨s.colls.filter (· ≠ c), s.defs.filter (·.coll ≠ c)⟩, some .ok) else (s, some .error)
  | .mkIndex d =>
    if d.coll ∈ s.colls ∧ ∀ e ∈ s.defs, ¬ (e.coll = d.coll ∧ e.name = d.name) then ({ s with defs := s.defs ++ [d] }, some .ok)
    else (s, some .error)
  | .rmIndex c n =>
    if ∃ e ∈ s.defs, e.coll = c ∧ e.name = n then ({ s with defs := s.defs.filter fun e => ¬ (e.coll = c ∧ e.name = n) }, some .ok)
    else (s, some .error)
  | .insert _ => (s, none)
  | .restart => (if durable then s else {}, none)
  | .crashRm c n _ => (if durable then { s with defs := s.defs.filter fun e => ¬ (e.coll = c ∧ e.name = n) } else {}, none)

/-- Of a history. -/
def Ideal.run (durable : Bool) (s : Ideal) : List Event → Ideal × List (Option Reply)
  | [] => (s, [])
  | e :: es => ((Ideal.run durable (s.step durable e).1 es).1, (s.step durable e).2 :: (Ideal.run durable (s.step durable e).1 es).2)

/-- The database has the collections and indexes of the ideal: DROP INDEX knows exactly these names, and a query on fields of
a collection goes through an index exactly if there is one on them. -/
structure Agrees (st : State) (s : Ideal) : Prop where
  colls : st.colls.map Prod.fst = s.colls
  names : ∀ c n, has st.eng c n = true ↔ ∃ d ∈ s.defs, d.coll = c ∧ d.name = n
  queries : ∀ c k, (∃ n, (c, k, n) ∈ st.used) ↔ ∃ n, ⟨n, k, c⟩ ∈ s.defs
  through : ∀ c k n, (c, k, n) ∈ st.used → ⟨n, k, c⟩ ∈ s.defs

/-- The names of the collections for which CREATE INDEX or DROP INDEX was asked for since the last start. -/
def touched (es : List Event) : List Nat := es.foldl (init := []) fun T e => match e with
  | .mkIndex d => d.coll.name :: T
  | .rmIndex c _ => c.name :: T
  | .restart => []
  | .crashRm .. => []
  | _ => T

/-- What the theorem assumes of an event, in the state of the ideal before it.  With a disk: the name of a new index is not in
use in another collection; a collection is dropped only if no collection of that name has an index or had one since the start; there
is no crash within DROP INDEX while there are other indexes.  Without: an index is not created again.  In both cases no two
indexes of a collection are on the same fields. -/
def Calm (onDisk : Bool) (past : List Event) (s : Ideal) : Event → Prop
  | .mkIndex d => (∀ e ∈ s.defs, e.coll = d.coll → e.keys = d.keys → e.name = d.name) ∧
      if onDisk then ∀ e ∈ s.defs, e.name = d.name → e.coll = d.coll else d.coll ∈ s.colls → ∀ e ∈ s.defs, ¬ (e.coll = d.coll ∧ e.name = d.name)
  | .rmColl c => onDisk = true → c.name ∉ touched past ∧ ∀ e ∈ s.defs, e.coll.name ≠ c.name
  | .crashRm c n _ => onDisk = true → (∃ e ∈ s.defs, e.coll = c ∧ e.name = n) → ∀ e ∈ s.defs, e.coll = c ∧ e.name = n
  | _ => True

/-- A history in which every event is like that. -/
def Legal (onDisk : Bool) (es : List Event) : Prop :=
  ∀ a e b, es = a ++ e :: b → Calm onDisk a (Ideal.run onDisk {} a).1 e

/-- Full claim of C79. -/
def C79_claim : Prop := ∀ (onDisk : Bool) (es : List Event), ∃ st rs, run { onDisk := onDisk } es = .ok (st, rs) ∧
  rs = (Ideal.run onDisk {} es).2 ∧ Agrees st (Ideal.run onDisk {} es).1

end Verif.IdxReg
