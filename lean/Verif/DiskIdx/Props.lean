import Verif.DiskIdx.Run
/-!
C77: queries through an index that is kept on disk.  C78: deletes and restarts.  Specification: `Spec.lean`.
-/
namespace Verif.DiskIdx

open Verif.IndexDisk (Cmp rows)
set_option linter.unusedSectionVars false

section
variable {K : Type} [LinearOrder K] {q : List (K × Id) → Cmp → K → List Id}

/-- Every schedule of requests, of the executor and of the index agent in which the requests are as described at `Calm`:
nothing in it is undefined or throws.  The full claim is `C77_claim`; what is missing: see `C77_late_index_fails` and the
theorems after it. -/
theorem C77_safe_partial [Nonempty K] (hq : Honest q) {st0 : State K} (h0 : Clean st0) (es : List (Event K)) (hl : Legal q st0 es) :
    ∃ st, run q st0 es = .ok st := by
  obtain ⟨st, -, h, -⟩ := run_ok hq h0 es hl
  exact ⟨st, h⟩

/-- Whatever happens after a query was asked, and whenever its answer comes: the answer are the documents it selects from
the collection as it was when it was asked. -/
theorem C77_query_partial (hq : Honest q) {st0 : State K} (h0 : Clean st0) (a b : List (Event K)) (s : Session) (p : Plan K)
    (hp : p.deletes = false) (hl : Legal q st0 (a ++ .request s (.scan p) :: b)) (sa st : State K) (ha : run q st0 a = .ok sa)
    (hst : run q st0 (a ++ .request s (.scan p) :: b) = .ok st) (r : List (Doc K)) (hr : (s, r) ∈ st.answers) :
    Selects p sa.store r := by
  haveI : Nonempty K := ⟨p.val⟩
  obtain ⟨st', g, r1, r2, r3, -, -⟩ := run_ok hq h0 _ hl
  rw [hst] at r1
  injection r1 with r1
  subst r1
  have hg := r3 a s p b rfl sa ha
  have := r2.ans (s, r) hr
  rw [hg] at this
  exact this hp

/-- A DELETE through the index removes the documents it selects from the collection as it was when it was asked, when it is
answered, and no others. -/
theorem C77_delete_partial (hq : Honest q) {st0 : State K} (h0 : Clean st0) (a b : List (Event K)) (s : Session) (p : Plan K)
    (hp : p.deletes = true) (hl : Legal q st0 (a ++ .request s (.scan p) :: b)) (sa st st' : State K) (ha : run q st0 a = .ok sa)
    (hst : run q st0 (a ++ .request s (.scan p) :: b) = .ok st) (hs' : step q st .reply = .ok st')
    (hno : s ∉ st.answers.map Prod.fst) (hyes : s ∈ st'.answers.map Prod.fst) :
    ∃ sel, Selects p sa.store sel ∧ st'.store = st.store.filter fun e => e.id ∉ sel.map Doc.id := by
  haveI : Nonempty K := ⟨p.val⟩
  obtain ⟨st1, g, r1, r2, r3, -, -⟩ := run_ok hq h0 _ hl
  rw [hst] at r1
  injection r1 with r1
  subst r1
  have hg := r3 a s p b rfl sa ha
  obtain ⟨st2, f1, -, f2, -⟩ := r2.reply
  have : st' = st2 := by
    have hs2 : reply st = .ok st' := hs'
    rw [f1] at hs2
    injection hs2 with h; exact h.symm
  subst this
  have new : ∀ s' (r : List (Doc K)), st'.answers = st.answers ++ [(s', r)] → s = s' := by
    intro s' r hr
    rw [hr, List.map_append, List.mem_append] at hyes
    rcases hyes with h | h
    · exact absurd h hno
    · simpa using h
  rcases f2 with ⟨-, h | ⟨s', r, h1, h2⟩⟩ | ⟨s', sel, h1, -, h2, h3, -, h4⟩
  · rw [h] at hyes; exact absurd hyes hno
  · have := new s' r h1
    subst this
    rw [hg, hp] at h2; cases h2
  · have := new s' _ h1
    subst this
    rw [hg] at h3
    exact ⟨sel, h3, h4⟩

/-- Nothing else changes the documents of the collection. -/
theorem C77_documents_partial [Nonempty K] (hq : Honest q) {st0 : State K} (h0 : Clean st0) (es : List (Event K)) (e : Event K)
    (hl : Legal q st0 (es ++ [e])) (st st' : State K) (hst : run q st0 es = .ok st) (hst' : step q st e = .ok st') :
    Changes es st st' e := by
  obtain ⟨st1, g, r1, r2, r3, r4, -⟩ := run_ok hq h0 es hl.prefix
  rw [hst] at r1
  injection r1 with r1
  subst r1
  have hc := hl es e [] rfl st hst
  cases e with
  | agent =>
    have : st' = agent q st := by injection hst' with h; exact h.symm
    show st'.store = st.store
    rw [this]
    unfold agent
    split <;> rfl
  | reply =>
    obtain ⟨st2, f1, f0, f2, -⟩ := r2.reply
    have : st' = st2 := by
      have hs2 : reply st = .ok st' := hst'
      rw [f1] at hs2
      injection hs2 with h; exact h.symm
    subst this
    rcases f2 with ⟨⟨h, -⟩, -⟩ | ⟨s', sel, h1, h2, h3, -⟩
    · exact .inl h
    · refine .inr ⟨s', (g s').2, r4 _ h2, h3, ?_, by rw [h1]; simp⟩
      exact r2.fresh _ h2
  | request s r =>
    obtain ⟨hs, hr⟩ := hc
    have hss : s ∉ st.susp.map Prod.fst := fun hm => by
      obtain ⟨e, he, rfl⟩ := List.mem_map.mp hm
      exact hs (r2.usedSusp e he)
    cases r with
    | insert ds =>
      obtain ⟨hn, hd⟩ := hr
      obtain ⟨m, sv, -, -, e3⟩ := insertAll_ok s ds st hn hd
      simp only [step, request, if_neg hss, e3] at hst'
      injection hst' with h
      simp only [Changes]
      rw [← h]
    | scan p =>
      simp only [step, request, if_neg hss] at hst'
      injection hst' with h
      simp only [Changes]
      rw [← h]
    | deleteIf p =>
      obtain ⟨st2, e1, -, e3, -⟩ := deleteIf_ok r2 hs p hr
      have hs2 : request s (.deleteIf p) st = .ok st' := hst'
      rw [e1] at hs2
      injection hs2 with h
      simp only [Changes]
      rw [← h]; exact e3

/-- Every query and every DELETE is answered: when the agent and the executor have worked through what is in their queues. -/
theorem C77_answered_partial [Nonempty K] (hq : Honest q) {st0 : State K} (h0 : Clean st0) (es : List (Event K)) (hl : Legal q st0 es) :
    ∃ n m st, run q st0 (es ++ (List.replicate n .agent ++ List.replicate m .reply)) = .ok st ∧
      ∀ s p, .request s (.scan p) ∈ es → s ∈ st.answers.map Prod.fst := by
  obtain ⟨st, g, r1, r2, -, -, r5⟩ := run_ok hq h0 es hl
  have agents : ∀ n, ∀ st1 : State K, Inv (sessionsOf es) (asked es) g st1 → st1.box.length = n → st1.susp = st.susp → st1.answers = st.answers →
      ∃ st2, run q st1 (List.replicate n .agent) = .ok st2 ∧ Inv (sessionsOf es) (asked es) g st2 ∧ st2.box = [] ∧ st2.susp = st.susp ∧ st2.answers = st.answers := by
    intro n
    induction n with
    | zero => exact fun st1 h1 h2 h3 h4 => ⟨st1, rfl, h1, List.length_eq_zero_iff.mp h2, h3, h4⟩
    | succ n ih =>
      intro st1 h1 h2 h3 h4
      have ha := h1.agent hq
      have : (agent q st1).box.length = n ∧ (agent q st1).susp = st1.susp ∧ (agent q st1).answers = st1.answers := by
        unfold agent
        cases hb : st1.box with
        | nil => rw [hb] at h2; cases h2
        | cons m b =>
          rw [hb] at h2
          cases m <;> exact ⟨Nat.succ.inj h2, rfl, rfl⟩
      obtain ⟨st2, f1, f2⟩ := ih _ ha this.1 (this.2.1.trans h3) (this.2.2.trans h4)
      exact ⟨st2, by rw [List.replicate_succ]; exact f1, f2⟩
  obtain ⟨st2, a1, a2, a3, a4, a5⟩ := agents _ st r2 rfl rfl rfl
  have replies : ∀ m, ∀ st1 : State K, Inv (sessionsOf es) (asked es) g st1 → st1.back.length = m → (st1.susp = [] ∨ st1.box = []) →
      (∀ s p, .request s (.scan p) ∈ es → s ∈ st1.susp.map Prod.fst ∨ s ∈ st1.answers.map Prod.fst) →
      ∃ st3, run q st1 (List.replicate m .reply) = .ok st3 ∧ ∀ s p, .request s (.scan p) ∈ es → s ∈ st3.answers.map Prod.fst := by
    intro m
    induction m with
    | zero =>
      intro st1 h1 h2 h3 h4
      refine ⟨st1, rfl, fun s p hs => ?_⟩
      have hsusp : st1.susp = [] := by
        rcases h3 with h3 | h3
        · exact h3
        · have := h1.pend
          rw [h3, List.length_eq_zero_iff.mp h2] at this
          exact List.map_eq_nil_iff.mp this.symm
      rcases h4 s p hs with h5 | h5
      · rw [hsusp] at h5; cases h5
      · exact h5
    | succ m ih =>
      intro st1 h1 h2 h3 h4
      obtain ⟨st', e1, e2, -, e4, e5, e6, e7, e8⟩ := h1.reply
      have hlen : st'.back.length = m := by
        have := e4 (fun h => by rw [h] at h2; cases h2)
        omega
      have hnext : st'.susp = [] ∨ st'.box = [] := by
        rcases h3 with h3 | h3
        · refine .inl (List.eq_nil_iff_forall_not_mem.mpr fun e he => ?_)
          have := e8 e he
          rw [h3] at this; cases this
        · rcases e7 with e7 | e7 | e7
          · exact .inr e7
          · exact absurd h3 e7
          · exact .inl e7
      obtain ⟨st3, f1, f2⟩ := ih st' e2 hlen hnext (by
        intro s p hs
        rcases h4 s p hs with h5 | h5
        · obtain ⟨x, hx, rfl⟩ := List.mem_map.mp h5
          rcases e5 x hx with h6 | h6
          · exact .inl (List.mem_map_of_mem h6)
          · exact .inr h6
        · obtain ⟨x, hx, rfl⟩ := List.mem_map.mp h5
          exact .inr (List.mem_map_of_mem (e6 x hx)))
      refine ⟨st3, ?_, f2⟩
      rw [List.replicate_succ]
      show (reply st1).bind _ = _
      rw [e1]; exact f1
  obtain ⟨st3, b1, b2⟩ := replies _ st2 a2 rfl (.inr a3) (fun s p hs => by rw [a4, a5]; exact r5 s p hs)
  refine ⟨st.box.length, st2.back.length, st3, ?_, b2⟩
  rw [run_append, r1, Res.bind_ok, run_append, a1, Res.bind_ok, b1]

/-- Where no DELETE goes through the index: what is on disk are the documents of the collection, at every moment; and when the
index agent has worked through its queue and every document has the field, a restart brings back the same collection, with
an index on disk that has its pairs, so that C77 holds again.  Missing for the full claim: DELETEs through the index, see
`C78_deleted_comes_back_fails`, and documents without the field, see `C78_restart_is_ub`. -/
theorem C78_restart_partial [Nonempty K] (hq : Honest q) {st0 : State K} (h0 : Clean st0) (es : List (Event K)) (hl : Legal q st0 es)
    (hd : ∀ s p, .request s (.scan p) ∈ es → p.deletes = false) (st : State K) (hst : run q st0 es = .ok st) :
    st.saved = st.store ∧ (st.box = [] → (∀ d ∈ st.store, d.key ≠ none) → ∃ st', restart st = .ok st' ∧ st'.store = st.store ∧ Clean st') := by
  have hsaved : st.saved = st.store := by
    induction es using List.reverseRecOn generalizing st with
    | nil =>
      injection hst with h
      rw [← h]; exact h0.saved
    | append_singleton es e ih =>
      obtain ⟨st1, g, r1, r2, r3, r4, -⟩ := run_ok hq h0 es hl.prefix
      have ih' := ih hl.prefix (fun s p hs => hd s p (List.mem_append_left _ hs)) st1 r1
      rw [run_snoc, r1, Res.bind_ok] at hst
      have hc := hl es e [] rfl st1 r1
      cases e with
      | agent =>
        have : st = agent q st1 := by injection hst with h; exact h.symm
        rw [this]
        unfold agent
        split <;> exact ih'
      | reply =>
        obtain ⟨st2, f1, f0, f2, -⟩ := r2.reply
        have : st = st2 := by
          have hs2 : reply st1 = .ok st := hst
          rw [f1] at hs2
          injection hs2 with h; exact h.symm
        subst this
        rcases f2 with ⟨⟨h1, h2⟩, -⟩ | ⟨s', sel, h1, h2, h3, -⟩
        · rw [h1, h2]; exact ih'
        · rw [hd _ _ (List.mem_append_left _ (r4 _ h2))] at h3; cases h3
      | request s r =>
        obtain ⟨hs, hr⟩ := hc
        have hss : s ∉ st1.susp.map Prod.fst := fun hm => by
          obtain ⟨e, he, rfl⟩ := List.mem_map.mp hm
          exact hs (r2.usedSusp e he)
        cases r with
        | insert ds =>
          obtain ⟨hn, hdd⟩ := hr
          obtain ⟨m, sv, -, e2, e3⟩ := insertAll_ok s ds st1 hn hdd
          simp only [step, request, if_neg hss, e3] at hst
          injection hst with h
          rw [← h]; exact e2 ih'
        | scan p =>
          simp only [step, request, if_neg hss] at hst
          injection hst with h
          rw [← h]; exact ih'
        | deleteIf p =>
          obtain ⟨st2, e1, -, -, -, -, e6⟩ := deleteIf_ok r2 hs p hr
          have hs2 : request s (.deleteIf p) st1 = .ok st := hst
          rw [e1] at hs2
          injection hs2 with h
          rw [← h]; exact e6 ih'
  refine ⟨hsaved, fun hbox hkey => ?_⟩
  obtain ⟨st1, g, r1, r2, -⟩ := run_ok hq h0 es hl
  rw [hst] at r1
  injection r1 with r1
  subst r1
  obtain ⟨m, m1, m2, m3, m4⟩ := syncLoop_ok st.store r2.ids st.store (fun d hd => ⟨hd, hkey d hd⟩) [] List.Pairwise.nil
  have m4' : ∀ e ∈ m, e.2.key = some e.1 := fun e he => by
    rcases m4 e he with h1 | h1
    · cases h1
    · exact h1.2
  have hkeys : m.map Prod.fst = (m.map Prod.snd).filterMap Doc.key := by
    clear m1 m2 m3 m4
    induction m with
    | nil => rfl
    | cons e es ih => rw [List.map_cons, List.map_cons, List.filterMap_cons, m4' e (by simp), ih fun x hx => m4' x (by simp [hx])]
  let st' : State K := { store := st.store, saved := st.store, mem := m, disk := st.disk, box := [.insertMany 0 (st.store.filterMap fun d => d.key.map fun k => (k, d.id))] }
  refine ⟨st', by unfold restart create; rw [hsaved, m1]; rfl, rfl, ?_⟩
  exact {
    ids := r2.ids
    nodup := r2.nodup
    disk := fun k i => by
      have := r2.fin k i
      rw [hbox] at this
      exact this
    mem := by
      show (m.map Prod.fst).Perm _
      rw [hkeys]
      have m3' : (m.map Prod.snd).Perm st.store := by simpa using m3
      exact m3'.filterMap _
    box := fun x hx => ⟨_, _, List.mem_singleton.mp hx⟩
    back := rfl
    susp := rfl
    answers := rfl
    saved := rfl }

end

/-! ### concrete schedules -/

/-- An empty collection. -/
theorem clean_empty : Clean ({} : State Nat) where
  ids := List.nodup_nil
  nodup := List.nodup_nil
  disk k i := ⟨fun h => (nomatch h), fun ⟨_, h, _⟩ => (nomatch h)⟩
  mem := List.Perm.refl _
  box m h := nomatch h
  back := rfl
  susp := rfl
  answers := rfl
  saved := rfl

theorem honest_rows : Honest (K := Nat) rows := fun _ _ _ => List.Perm.refl _

/-- A query for a value of the field. -/
def ask (v : Nat) : Req Nat := .scan ⟨.eq, v, -1, false⟩

/-- A DELETE of the documents with a value of the field. -/
def del (v : Nat) : Req Nat := .scan ⟨.eq, v, -1, true⟩

/-- Two documents are inserted, and while the agent is behind, two queries are asked; another document arrives before they are
answered. -/
def busy : List (Event Nat) := [.request 1 (.insert [⟨1, some 5⟩, ⟨2, some 7⟩]), .agent, .request 2 (ask 5), .request 3 (.scan ⟨.gte, 5, 1, false⟩),
  .request 4 (.insert [⟨3, some 5⟩]), .reply, .agent, .agent, .agent, .reply, .agent, .reply, .reply]

/-- What the answers of a schedule are. -/
def answersOf (r : Res (State Nat)) : Option (List (Session × List (Doc Nat))) := match r with
  | .ok st => some st.answers
  | _ => none

/-- The documents of a state. -/
def storeOf (r : Res (State Nat)) : Option (List (Doc Nat)) := match r with
  | .ok st => some st.store
  | _ => none

/-- All three documents have the field and two match; the queries were answered as asked, in the middle of other work. -/
theorem busy_answers : answersOf (run rows {} busy) = some [(2, [⟨1, some 5⟩]), (3, [⟨1, some 5⟩])] := by decide +kernel

/-- Decidable form of `Calm` for schedules without a DELETE by a function. -/
def calmB (past : List (Event Nat)) (st : State Nat) : Event Nat → Bool
  | .request s r => s ∉ sessionsOf past && match r with
    | .insert ds => (ds.map Doc.id).Nodup && ds.all fun d => d.id ∉ st.store.map Doc.id
    | .scan p => if p.deletes then st.susp.isEmpty else st.susp.all fun e => !e.2.deletes
    | .deleteIf _ => !asked past
  | _ => true

/-- All requests of a schedule. -/
def legalB (past : List (Event Nat)) (st : State Nat) : List (Event Nat) → Bool
  | [] => true
  | e :: es => calmB past st e && match step rows st e with
    | .ok st' => legalB (past ++ [e]) st' es
    | _ => false

theorem calm_of (past : List (Event Nat)) (st : State Nat) (e : Event Nat) (h : calmB past st e = true) : Calm past st e := by
  cases e with
  | agent => trivial
  | reply => trivial
  | request s r =>
    simp only [calmB, Bool.and_eq_true, decide_eq_true_eq] at h
    refine ⟨h.1, ?_⟩
    cases r with
    | insert ds =>
      have h2 := h.2
      simp only [Bool.and_eq_true, decide_eq_true_eq, List.all_eq_true] at h2
      exact h2
    | scan p =>
      have h2 := h.2
      simp only at h2 ⊢
      split at h2
      · rename_i hp
        rw [if_pos hp]; exact List.isEmpty_iff.mp h2
      · rename_i hp
        rw [if_neg hp]
        intro e he
        have := List.all_eq_true.mp h2 e he
        simpa using this
    | deleteIf p =>
      have h2 := h.2
      exact .inr (by simpa using h2)

theorem legal_of (st0 : State Nat) (past es : List (Event Nat)) (st : State Nat) (hst : run rows st0 past = .ok st)
    (hp : Legal rows st0 past) (h : legalB past st es = true) : Legal rows st0 (past ++ es) := by
  induction es generalizing past st with
  | nil => rw [List.append_nil]; exact hp
  | cons e es ih =>
    simp only [legalB, Bool.and_eq_true] at h
    have hc := calm_of past st e h.1
    have hp' : Legal rows st0 (past ++ [e]) := by
      intro a x b hab s hs
      rcases List.eq_nil_or_concat b with rfl | ⟨b', z, rfl⟩
      · obtain ⟨h1, h2⟩ := List.append_inj' hab rfl
        subst h1
        injection h2 with h2
        subst h2
        rw [hst] at hs
        injection hs with hs
        rw [← hs]; exact hc
      · have hab' : past ++ [e] = (a ++ x :: b') ++ [z] := by rw [hab]; simp
        obtain ⟨h1, -⟩ := List.append_inj' hab' rfl
        exact hp a x b' h1 s hs
    have hap : past ++ e :: es = (past ++ [e]) ++ es := by simp
    cases hse : step rows st e with
    | ok st' =>
      rw [hse] at h
      rw [hap]
      exact ih (past ++ [e]) st' (by rw [run_snoc, hst]; exact hse) hp' h.2
    | throws => rw [hse] at h; exact absurd h.2 (by simp)
    | ub => rw [hse] at h; exact absurd h.2 (by simp)
    | diverges => rw [hse] at h; exact absurd h.2 (by simp)

/-- The schedule is one the theorems speak about. -/
example : Legal rows {} busy := legal_of {} [] busy {} rfl (fun a e b h => by simp at h) (by decide +kernel)

/-- So is one with a DELETE in another way before the index is used, and a DELETE through it while documents arrive. -/
example : Legal rows {} [.request 1 (.insert [⟨1, some 5⟩, ⟨2, some 5⟩, ⟨3, some 6⟩]), .request 2 (.deleteIf fun d => d.id = 2), .agent, .request 3 (del 5),
    .request 4 (.insert [⟨4, some 5⟩]), .agent, .agent, .agent, .agent, .reply, .reply, .reply, .reply, .reply, .request 5 (ask 5)] :=
  legal_of {} [] _ {} rfl (fun a e b h => by simp at h) (by decide +kernel)

/-- Which removes the document that was there, not the one that arrived. -/
example : storeOf (run rows {} [.request 1 (.insert [⟨1, some 5⟩, ⟨2, some 5⟩, ⟨3, some 6⟩]), .request 2 (.deleteIf fun d => d.id = 2), .agent, .request 3 (del 5),
    .request 4 (.insert [⟨4, some 5⟩]), .agent, .agent, .agent, .agent, .reply, .reply, .reply, .reply, .reply]) = some [⟨3, some 6⟩, ⟨4, some 5⟩] := by decide +kernel

/-! ### where the full claim fails -/

/-- A document is stored, an index is created, a query for the document is asked: nothing is found. -/
theorem C77_late_index_fails : answersOf ((create 9 [⟨1, some 5⟩]).bind fun st => run rows st [.request 1 (ask 5), .agent, .agent, .reply]) =
    some [(1, [])] := by decide +kernel

/-- The full claim does not hold of the code. -/
theorem C77_fails : ¬ C77_claim Nat := by
  intro h
  obtain ⟨st0, e0⟩ : ∃ st0, create 9 [⟨1, some 5⟩] = .ok st0 := ⟨_, rfl⟩
  obtain ⟨sa, st, h1, h2, h3⟩ := h rows honest_rows [⟨1, some 5⟩] 9 st0 e0 [] 1 ⟨.eq, 5, -1, false⟩ [.agent, .agent, .reply] rfl (by simp [sessionsOf]) (by simp [sessionsOf])
  have h4 := C77_late_index_fails
  rw [e0] at h4
  have h5 : answersOf (run rows st0 ([] ++ .request 1 (.scan ⟨.eq, 5, -1, false⟩) :: [.agent, .agent, .reply])) = some [(1, [])] := h4
  rw [h2] at h5
  have h6 : st.answers = [(1, [])] := by injection h5
  obtain ⟨l, p1, -, p2⟩ := h3 [] (by rw [h6]; simp)
  have hsa : sa = st0 := by injection h1 with h; exact h.symm
  have hl : l = [] := by simpa [firstN] using p2.symm
  have hs0 : st0.store = [⟨1, some 5⟩] := by
    have : create 9 [(⟨1, some 5⟩ : Doc Nat)] = .ok st0 := e0
    injection this with h7
    rw [← h7]
  rw [hl, hsa, hs0] at p1
  exact absurd p1.length_eq (by decide)

/-- The schedule ends in undefined behaviour. -/
def undefinedB (r : Res (State Nat)) : Bool := match r with
  | .ub => true
  | _ => false

/-- After a query through the index, a DELETE that selects a document in another way: its entry is not in memory, and
`erase(end())` is undefined. -/
theorem C77_delete_after_query_is_ub : undefinedB (run rows {} [.request 1 (.insert [⟨1, some 5⟩, ⟨2, some 7⟩]), .agent, .agent, .reply, .reply,
    .request 2 (ask 5), .agent, .reply, .request 3 (.deleteIf fun d => d.id = 2)]) = true := by decide +kernel

/-- A query and a DELETE through the index that overlap: the ids the query found are looked up when their documents are gone. -/
theorem C77_overlap_is_ub : undefinedB (run rows {} [.request 1 (.insert [⟨1, some 5⟩]), .agent, .reply,
    .request 2 (del 5), .request 3 (ask 5), .agent, .agent, .reply, .reply]) = true := by decide +kernel

/-- The same session inserts and then queries, and the agent's notice that the insert is done comes after the query was
asked: it takes the waiting plan away, and the result of the query finds none. -/
theorem C77_same_session_is_ub : undefinedB (run rows {} [.request 1 (.insert [⟨1, some 5⟩]), .request 1 (ask 5), .agent, .reply, .agent, .reply]) =
    true := by decide +kernel

/-- Two documents are inserted, one is deleted through the index, and all work is done: the document is gone (first part), and
after a restart it is back (second part). -/
theorem C78_deleted_comes_back_fails :
    storeOf (run rows {} [.request 1 (.insert [⟨1, some 5⟩, ⟨2, some 7⟩]), .agent, .agent, .reply, .reply, .request 2 (del 5), .agent, .reply, .agent, .reply]) =
      some [⟨2, some 7⟩] ∧
    storeOf ((run rows {} [.request 1 (.insert [⟨1, some 5⟩, ⟨2, some 7⟩]), .agent, .agent, .reply, .reply, .request 2 (del 5), .agent, .reply, .agent, .reply]).bind
      restart) = some [⟨1, some 5⟩, ⟨2, some 7⟩] := by decide +kernel

/-- It is not found through the index, which was told. -/
theorem C78_index_disagrees_fails :
    answersOf (((run rows {} [.request 1 (.insert [⟨1, some 5⟩, ⟨2, some 7⟩]), .agent, .agent, .reply, .reply, .request 2 (del 5), .agent, .reply, .agent, .reply]).bind
      restart).bind fun st => run rows st [.request 1 (ask 5), .agent, .agent, .reply]) = some [(1, [])] := by decide +kernel

/-- One document without the field: the index cannot be created again at the restart. -/
theorem C78_restart_is_ub : undefinedB ((run rows {} [.request 1 (.insert [⟨1, none⟩])]).bind restart) = true := by decide +kernel

end Verif.DiskIdx
