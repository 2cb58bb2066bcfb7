import Verif.DiskIdx.Model
/-!
What C77 and C78 say.
-/
namespace Verif.DiskIdx

open Verif.IndexDisk (Cmp rows)

variable {K : Type} [LinearOrder K]

/-- The document has the field, and its value stands in the relation to `v`. -/
def Matches (c : Cmp) (v : K) (d : Doc K) : Prop := ∃ k, d.key = some k ∧ c.holds k v

instance (c : Cmp) (v : K) (d : Doc K) : Decidable (Matches c v d) :=
  match h : d.key with
  | none => isFalse (by rintro ⟨k, h1, _⟩; rw [h] at h1; cases h1)
  | some k => if hk : c.holds k v then isTrue ⟨k, h, hk⟩ else
    isFalse (by rintro ⟨j, h1, h2⟩; rw [h] at h1; injection h1 with h1; subst h1; exact hk h2)

/-- In the order of the field. -/
def InOrder (l : List (Doc K)) : Prop := l.Pairwise fun a b => ∀ j k, a.key = some j → b.key = some k → j ≤ k

/-- What a limit lets through: all for -1, else the first `lim`. -/
def firstN {α : Type} (lim : Int) (l : List α) : List α := if lim = -1 then l else l.take lim.toNat

/-- The documents a plan selects from a collection: those that match, in the order of the field (in any order where that is
equal), up to the limit. -/
def Selects (p : Plan K) (docs sel : List (Doc K)) : Prop :=
  ∃ l : List (Doc K), l.Perm (docs.filter (Matches p.cmp p.val ·)) ∧ InOrder l ∧ sel = firstN p.lim l

/-- The index on disk answers with the rows of the query, each once, in any order (C16). -/
def Honest (q : List (K × Id) → Cmp → K → List Id) : Prop := ∀ P c k, (q P c k).Perm (rows P c k)

/-- The sessions of the requests of a schedule. -/
def sessionsOf : List (Event K) → List Session
  | [] => []
  | .request s _ :: es => s :: sessionsOf es
  | _ :: es => sessionsOf es

/-- The schedule has a query or a DELETE through the index. -/
def asked : List (Event K) → Bool
  | [] => false
  | .request _ (.scan _) :: _ => true
  | _ :: es => asked es

/-- What the theorem assumes of a request, in the state in which it is made: its session is new; the ids of inserted
documents are new; a DELETE through the index and another query or DELETE through it do not overlap; a DELETE in another way
removes no document that has the field, unless the index was not used yet. -/
def Calm (past : List (Event K)) (st : State K) : Event K → Prop
  | .request s r => s ∉ sessionsOf past ∧ match r with
    | .insert ds => (ds.map Doc.id).Nodup ∧ ∀ d ∈ ds, d.id ∉ st.store.map Doc.id
    | .scan p => if p.deletes then st.susp = [] else ∀ e ∈ st.susp, e.2.deletes = false
    | .deleteIf p => (∀ d ∈ st.store, p d = true → d.key = none) ∨ asked past = false
  | _ => True

/-- A schedule in which every request is like that. -/
def Legal (q : List (K × Id) → Cmp → K → List Id) (st0 : State K) (es : List (Event K)) : Prop :=
  ∀ a e b, es = a ++ e :: b → ∀ st, run q st0 a = .ok st → Calm a st e

/-- The pair of field value and id belongs to a document. -/
def Pair (S : List (Doc K)) (k : K) (i : Id) : Prop := ∃ d ∈ S, d.id = i ∧ d.key = some k

/-- A state in which nothing is going on and the index on disk has the pairs of the documents: the state after an index was
created on an empty collection, and after a restart (C78). -/
structure Clean (st : State K) : Prop where
  ids : (st.store.map Doc.id).Nodup
  nodup : st.disk.Nodup
  disk : ∀ k i, (k, i) ∈ st.disk ↔ Pair st.store k i
  mem : (st.mem.map Prod.fst).Perm (st.store.filterMap Doc.key)
  box : ∀ m ∈ st.box, ∃ s l, m = Msg.insertMany s l
  back : st.back = []
  susp : st.susp = []
  answers : st.answers = []
  saved : st.saved = st.store

/-- What an event may do to the documents of the collection: an INSERT adds its documents, a DELETE in another way removes the
ones it selects, at once; a request for a query or a DELETE through the index and the work of the index agent change nothing,
and a reply changes nothing unless it answers a DELETE. -/
def Changes (past : List (Event K)) (st st' : State K) : Event K → Prop
  | .request _ (.insert ds) => st'.store = st.store ++ ds
  | .request _ (.deleteIf p) => st'.store = st.store.filter fun d => !p d
  | .request _ (.scan _) => st'.store = st.store
  | .agent => st'.store = st.store
  | .reply => st'.store = st.store ∨
      ∃ s p, .request s (.scan p) ∈ past ∧ p.deletes = true ∧ s ∉ st.answers.map Prod.fst ∧ s ∈ st'.answers.map Prod.fst

/-- Full claim of C77: whatever the schedule, every query that is answered was answered with the documents it selects from
the collection as it was when it was asked. -/
def C77_claim (K : Type) [LinearOrder K] : Prop :=
  ∀ (q : List (K × Id) → Cmp → K → List Id), Honest q → ∀ (docs : List (Doc K)) (s0 : Session) (st0 : State K), create s0 docs = .ok st0 →
    ∀ (a : List (Event K)) (s : Session) (p : Plan K) (b : List (Event K)), p.deletes = false →
    s ∉ sessionsOf a → s ∉ sessionsOf b →
    ∃ sa st, run q st0 a = .ok sa ∧ run q st0 (a ++ .request s (.scan p) :: b) = .ok st ∧
      ∀ r, (s, r) ∈ st.answers → Selects p sa.store r

end Verif.DiskIdx
