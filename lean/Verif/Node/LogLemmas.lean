import Verif.Node.Spec
import Mathlib.Data.List.Nodup
import Mathlib.Tactic.Tauto
/-!
The invariant behind C07: every request has at most one message under way, and a success of the log stands for a record.
-/
namespace Verif.Node

/-- The session of a message. -/
def DMsg.sid : DMsg → Sid
  | .plan s _ _ => s
  | .finish s _ => s
  | .walOk s _ => s

/-- The part of the node the invariant speaks of. -/
structure View where
  disp : List DMsg
  exec : List Sid
  wal : List (Sid × Nat × Plan)
  sessions : Sid → Option Ses
  open' : Sid → Option (Nat × Plan)
  log : List Rec
  answers : List (Nat × Plan × Bool)

/-- The view of a node. -/
def view (s : Sys) : View := ⟨s.disp, s.exec.map Prod.fst, s.wal, s.sessions, s.open', s.log, s.answers⟩

/-- The sessions of the messages under way. -/
def View.flight (v : View) : List Sid := v.disp.map DMsg.sid ++ (v.exec ++ v.wal.map Prod.fst)

/-- A record of a request. -/
def View.has (v : View) (n : Nat) (p : Plan) : Prop := ∃ id, (⟨id, n, p⟩ : Rec) ∈ v.log

/-- The invariant. -/
structure Inv (v : View) : Prop where
  nodup : v.flight.Nodup
  fresh : ∀ sid n p, DMsg.plan sid n p ∈ v.disp → (∃ k, sid = .client k) ∧ v.open' sid = some (n, p) ∧ v.sessions sid = none
  client : ∀ sid ses, v.sessions sid = some ses → ses.replay = false → (∃ k, sid = .client k) ∧ v.open' sid = some (ses.serial, ses.plan)
  back : ∀ sid ses, v.sessions sid = some ses → ses.replay = true → ∃ k, sid = .replay k
  toLog : ∀ sid n p, (sid, n, p) ∈ v.wal → v.sessions sid = some ⟨n, p, false⟩
  logged : ∀ sid id, DMsg.walOk sid id ∈ v.disp → ∃ ses, v.sessions sid = some ses ∧ ses.replay = false ∧ v.has ses.serial ses.plan
  waits : ∀ k, Sid.client k ∈ v.flight → v.open' (.client k) ≠ none
  answered : ∀ n p, (n, p, true) ∈ v.answers → Durable p → v.has n p
  held : ∀ sid, sid ∈ v.exec → ∃ ses, v.sessions sid = some ses

theorem exec_mem {v : View} {sid : Sid} (h : sid ∈ v.exec) : sid ∈ v.flight :=
  List.mem_append_right _ (List.mem_append_left _ h)

theorem set_same {K V : Type} [DecidableEq K] (m : K → V) (k : K) (v : V) : set m k v k = v := if_pos rfl

theorem set_other {K V : Type} [DecidableEq K] (m : K → V) (k x : K) (v : V) (h : x ≠ k) : set m k v x = m x := if_neg h

theorem set_none {K V : Type} [DecidableEq K] {m : K → Option V} {k x : K} {v : V} (h : set m k none x = some v) : x ≠ k ∧ m x = some v := by
  unfold set at h
  by_cases e : x = k
  · rw [if_pos e] at h; exact absurd h (by simp)
  · rw [if_neg e] at h; exact ⟨e, h⟩

theorem sid_mem {v : View} {m : DMsg} (h : m ∈ v.disp) : m.sid ∈ v.flight :=
  List.mem_append_left _ (List.mem_map_of_mem h)

theorem wal_mem {v : View} {sid : Sid} {n : Nat} {p : Plan} (h : (sid, n, p) ∈ v.wal) : sid ∈ v.flight :=
  List.mem_append_right _ (List.mem_append_right _ (List.mem_map.mpr ⟨_, h, rfl⟩))

/-- Answering a request whose message has been taken. -/
theorem Inv.reply {s : Sys} (hi : Inv (view s)) (sid : Sid) (ok : Bool) (hf : sid ∉ (view s).flight)
    (ses : Ses) (hs : s.sessions sid = some ses) (hr : ses.replay = false) (hl : ok = true → Durable ses.plan → (view s).has ses.serial ses.plan) :
    Inv (view (reply s sid ok)) := by
  have ho := (hi.client sid ses hs hr).2
  have e : Node.reply s sid ok = { s with open' := set s.open' sid none, answers := (ses.serial, ses.plan, ok) :: s.answers, sessions := set s.sessions sid none } := by
    unfold Node.reply
    have : s.open' sid = some (ses.serial, ses.plan) := ho
    rw [this]
  rw [e]
  refine ⟨hi.nodup, ?_, ?_, ?_, ?_, ?_, ?_, ?_, ?_⟩
  · intro x n p h
    have hne : x ≠ sid := fun e => hf (e ▸ sid_mem (v := view s) h)
    obtain ⟨a, b, c⟩ := hi.fresh x n p h
    exact ⟨a, (set_other _ _ _ _ hne).trans b, (set_other _ _ _ _ hne).trans c⟩
  · intro x y h hy
    obtain ⟨hne, h'⟩ := set_none h
    obtain ⟨a, b⟩ := hi.client x y h' hy
    exact ⟨a, (set_other _ _ _ _ hne).trans b⟩
  · intro x y h hy
    exact hi.back x y (set_none h).2 hy
  · intro x n p h
    have hne : x ≠ sid := fun e => hf (e ▸ wal_mem (v := view s) h)
    exact (set_other _ _ _ _ hne).trans (hi.toLog x n p h)
  · intro x id h
    have hne : x ≠ sid := fun e => hf (e ▸ sid_mem (v := view s) h)
    obtain ⟨y, a, b⟩ := hi.logged x id h
    exact ⟨y, (set_other _ _ _ _ hne).trans a, b⟩
  · intro k h
    have hne : Sid.client k ≠ sid := fun e => hf (e ▸ h)
    show set _ _ _ _ ≠ none
    rw [set_other _ _ _ _ hne]
    exact hi.waits k h
  · intro n p h hd
    rcases List.mem_cons.mp h with h | h
    · injection h with h1 h2
      injection h2 with h2 h3
      subst h1; subst h2
      exact hl h3.symm hd
    · exact hi.answered n p h hd
  · intro x hx
    have hne : x ≠ sid := fun e => hf (e ▸ exec_mem (v := view s) hx)
    obtain ⟨y, hy⟩ := hi.held x hx
    exact ⟨y, (set_other _ _ _ _ hne).trans hy⟩

/-- A message for a session that has none under way. -/
theorem nodup_mid {α : Type} {a b c : List α} {x : α} (h : (a ++ (b ++ c)).Nodup) (hx : x ∉ a ++ (b ++ c)) :
    (a ++ [x] ++ (b ++ c)).Nodup ∧ (a ++ (b ++ [x] ++ c)).Nodup ∧ (a ++ (b ++ (c ++ [x]))).Nodup := by
  have key : (x :: (a ++ (b ++ c))).Nodup := List.nodup_cons.mpr ⟨hx, h⟩
  refine ⟨key.perm ?_, key.perm ?_, key.perm ?_⟩
  · have : (x :: (a ++ (b ++ c))).Perm (a ++ x :: (b ++ c)) := (List.perm_middle).symm
    simpa using this
  · have : (x :: (a ++ (b ++ c))).Perm (a ++ b ++ x :: c) := by
      rw [← List.append_assoc]; exact (List.perm_middle).symm
    simpa using this
  · have : (x :: (a ++ (b ++ c))).Perm (a ++ b ++ c ++ x :: []) := by
      have := (List.perm_middle (a := x) (l₁ := a ++ b ++ c) (l₂ := [])).symm
      simpa using this
    simpa using this

theorem flight_post (s : Sys) (sid : Sid) (ok : Bool) (x : Sid) : x ∈ (view (post s sid ok)).flight ↔ x = sid ∨ x ∈ (view s).flight := by
  show x ∈ (s.disp ++ [DMsg.finish sid ok]).map DMsg.sid ++ (s.exec.map Prod.fst ++ s.wal.map Prod.fst) ↔
    x = sid ∨ x ∈ s.disp.map DMsg.sid ++ (s.exec.map Prod.fst ++ s.wal.map Prod.fst)
  rw [List.map_append, List.mem_append, List.mem_append, List.mem_append, List.mem_append, List.mem_append]
  show (_ ∨ x ∈ [sid]) ∨ _ ↔ _
  rw [List.mem_singleton]
  tauto

theorem Inv.post {s : Sys} (hi : Inv (view s)) (sid : Sid) (ok : Bool) (hf : sid ∉ (view s).flight)
    (ses : Ses) (hs : s.sessions sid = some ses) : Inv (view (post s sid ok)) := by
  refine ⟨?_, ?_, hi.client, hi.back, hi.toLog, ?_, ?_, hi.answered, hi.held⟩
  · have := (nodup_mid (x := sid) hi.nodup hf).1
    show ((s.disp ++ [DMsg.finish sid ok]).map DMsg.sid ++ _).Nodup
    rw [List.map_append]
    exact this
  · intro x n p h
    rcases List.mem_append.mp h with h | h
    · exact hi.fresh x n p h
    · exact absurd (List.mem_singleton.mp h) (by simp)
  · intro x id h
    rcases List.mem_append.mp h with h | h
    · exact hi.logged x id h
    · exact absurd (List.mem_singleton.mp h) (by simp)
  · intro k h
    rcases (flight_post s sid ok _).mp h with h | h
    · cases hr : ses.replay with
      | false =>
        have := (hi.client sid ses hs hr).2
        rw [h]
        intro e
        rw [show (view s).open' sid = none from e] at this
        exact absurd this (by simp)
      | true =>
        obtain ⟨j, hj⟩ := hi.back sid ses hs hr
        exact absurd (h.trans hj) (by simp)
    · exact hi.waits k h

theorem Inv.toExec {s : Sys} (hi : Inv (view s)) (sid : Sid) (p : Plan) (g : Nat) (hf : sid ∉ (view s).flight)
    (ses : Ses) (hs : s.sessions sid = some ses) : Inv (view { s with exec := s.exec ++ [(sid, g, p)] }) := by
  have hfl : (view { s with exec := s.exec ++ [(sid, g, p)] }).flight = s.disp.map DMsg.sid ++ (s.exec.map Prod.fst ++ [sid] ++ s.wal.map Prod.fst) := by
    show _ ++ ((s.exec ++ [(sid, g, p)]).map Prod.fst ++ _) = _
    rw [List.map_append]; rfl
  refine ⟨?_, hi.fresh, hi.client, hi.back, hi.toLog, hi.logged, ?_, hi.answered, ?_⟩
  · rw [hfl]; exact (nodup_mid (x := sid) hi.nodup hf).2.1
  · intro k h
    rw [hfl] at h
    have h' : Sid.client k = sid ∨ Sid.client k ∈ (view s).flight := by
      simp only [List.mem_append, List.mem_singleton] at h
      unfold View.flight
      simp only [List.mem_append]
      rcases h with h | (h | h) | h
      · exact .inr (.inl h)
      · exact .inr (.inr (.inl h))
      · exact .inl h
      · exact .inr (.inr (.inr h))
    rcases h' with h | h
    · cases hr : ses.replay with
      | false =>
        have := (hi.client sid ses hs hr).2
        rw [h]
        intro e
        rw [show (view s).open' sid = none from e] at this
        exact absurd this (by simp)
      | true =>
        obtain ⟨j, hj⟩ := hi.back sid ses hs hr
        exact absurd (h.trans hj) (by simp)
    · exact hi.waits k h
  · intro x hx
    have hx : x ∈ (s.exec ++ [(sid, g, p)]).map Prod.fst := hx
    rw [List.map_append] at hx
    rcases List.mem_append.mp hx with hx | hx
    · exact hi.held x hx
    · exact ⟨ses, by rw [List.mem_singleton.mp hx]; exact hs⟩

theorem Inv.toWal {s : Sys} (hi : Inv (view s)) (sid : Sid) (hf : sid ∉ (view s).flight)
    (ses : Ses) (hs : s.sessions sid = some ses) (hr : ses.replay = false) :
    Inv (view { s with wal := s.wal ++ [(sid, ses.serial, ses.plan)] }) := by
  have hfl : (view { s with wal := s.wal ++ [(sid, ses.serial, ses.plan)] }).flight =
      s.disp.map DMsg.sid ++ (s.exec.map Prod.fst ++ (s.wal.map Prod.fst ++ [sid])) := by
    show _ ++ (_ ++ (s.wal ++ [(sid, ses.serial, ses.plan)]).map Prod.fst) = _
    rw [List.map_append]; rfl
  refine ⟨?_, hi.fresh, hi.client, hi.back, ?_, hi.logged, ?_, hi.answered, hi.held⟩
  · rw [hfl]; exact (nodup_mid (x := sid) hi.nodup hf).2.2
  · intro x n p h
    rcases List.mem_append.mp h with h | h
    · exact hi.toLog x n p h
    · have := List.mem_singleton.mp h
      injection this with h1 h2
      injection h2 with h2 h3
      subst h1; subst h2; subst h3
      show s.sessions x = _
      rw [hs]
      cases ses
      simp only at hr
      rw [hr]
  · intro k h
    rw [hfl] at h
    have h' : Sid.client k = sid ∨ Sid.client k ∈ (view s).flight := by
      simp only [List.mem_append, List.mem_singleton] at h
      unfold View.flight
      simp only [List.mem_append]
      rcases h with h | h | h | h
      · exact .inr (.inl h)
      · exact .inr (.inr (.inl h))
      · exact .inr (.inr (.inr h))
      · exact .inl h
    rcases h' with h | h
    · have := (hi.client sid ses hs hr).2
      rw [h]
      intro e
      rw [show (view s).open' sid = none from e] at this
      exact absurd this (by simp)
    · exact hi.waits k h

theorem view_addCmd (s : Sys) (sid : Sid) (c : Cmd) : view (addCmd s sid c) = view s := rfl

theorem view_flush (s : Sys) (sid : Sid) (id : Nat) : view (flush s sid id) = view s := rfl

theorem view_updateCat (s : Sys) (p : Plan) : view (updateCat s p) = view s := by
  cases p with
  | insert c d =>
    show view (if s.cat.computes c then s else { s with dead := true }) = view s
    split <;> rfl
  | _ => rfl

theorem sessions_view {s t : Sys} (h : view s = view t) : s.sessions = t.sessions := congrArg View.sessions h

theorem Inv.done {s : Sys} (hi : Inv (view s)) (sid : Sid) (ok : Bool) (hf : sid ∉ (view s).flight)
    (ses : Ses) (hs : s.sessions sid = some ses) (hl : ses.replay = false → ok = true → Durable ses.plan → (view s).has ses.serial ses.plan) :
    Inv (view (done s sid ses ok)) := by
  unfold Node.done
  cases hr : ses.replay with
  | true => rw [if_pos rfl]; exact hi
  | false => rw [if_neg (by simp)]; exact hi.reply sid ok hf ses hs hr (hl hr)

theorem Inv.walSuccess {s : Sys} (hi : Inv (view s)) (sid : Sid) (id : Nat) (hf : sid ∉ (view s).flight)
    (hl : ∀ ses, s.sessions sid = some ses → ses.replay = false → (view s).has ses.serial ses.plan) : Inv (view (walSuccess s sid id)) := by
  unfold Node.walSuccess
  cases hs : s.sessions sid with
  | none => exact hi
  | some ses =>
    show Inv (view (if (updateCat s ses.plan).dead then updateCat s ses.plan
      else if ses.replay then flush (updateCat s ses.plan) sid id else Node.reply (flush (updateCat s ses.plan) sid id) sid true))
    have hv : view (flush (updateCat s ses.plan) sid id) = view s := (view_flush _ _ _).trans (view_updateCat _ _)
    split
    · rw [view_updateCat]; exact hi
    · cases hr : ses.replay with
      | true => rw [if_pos rfl, hv]; exact hi
      | false =>
        rw [if_neg (by simp)]
        refine Inv.reply (s := flush (updateCat s ses.plan) sid id) (hv ▸ hi) sid true (by rw [hv]; exact hf) ses ?_ hr ?_
        · rw [sessions_view hv]; exact hs
        · intro _ _; rw [hv]; exact hl ses hs hr

theorem Inv.log {s : Sys} (hi : Inv (view s)) (sid : Sid) (hf : sid ∉ (view s).flight)
    (ses : Ses) (hs : s.sessions sid = some ses) : Inv (view (Node.logged s sid ses)) := by
  unfold Node.logged
  cases hr : ses.replay with
  | false => rw [if_neg (by simp)]; exact hi.toWal sid hf ses hs hr
  | true =>
    rw [if_pos rfl]
    unfold Node.done
    rw [if_pos hr]
    refine hi.walSuccess sid _ hf ?_
    intro y hy hyr
    rw [hs] at hy
    injection hy with hy
    rw [← hy, hr] at hyr
    exact absurd hyr (by simp)

theorem Inv.finish {s : Sys} (hi : Inv (view s)) (sid : Sid) (ok : Bool) (hf : sid ∉ (view s).flight) : Inv (view (finishPlan s sid ok)) := by
  unfold finishPlan
  cases hs : s.sessions sid with
  | none => exact hi
  | some ses =>
    show Inv (view (if ok then _ else _))
    cases ok with
    | false => rw [if_neg (by simp)]; exact hi.done sid false hf ses hs (fun _ h => absurd h (by simp))
    | true =>
      rw [if_pos rfl]
      cases hp : ses.plan with
      | createDb d => exact Inv.log (s := addCmd s sid _) hi sid hf ses hs
      | createColl d => exact Inv.log (s := addCmd s sid _) hi sid hf ses hs
      | dropColl d => exact Inv.log (s := addCmd s sid _) hi sid hf ses hs
      | insert c d => exact hi.log sid hf ses hs
      | delete c d => exact hi.log sid hf ses hs
      | update c d => exact hi.log sid hf ses hs
      | dropDb d =>
        refine Inv.done (s := { s with cat := s.cat.dropNs d }) hi sid true hf ses hs ?_
        intro _ _ h; rw [hp] at h; exact h.elim
      | find c =>
        refine hi.done sid true hf ses hs ?_
        intro _ _ h; rw [hp] at h; exact h.elim

theorem Inv.exec {s : Sys} (hi : Inv (view s)) (sid : Sid) (p : Plan) (c : Coll) (hf : sid ∉ (view s).flight)
    (ses : Ses) (hs : s.sessions sid = some ses) : Inv (view (Node.toExec s sid p c)) := by
  unfold Node.toExec
  split
  · exact hi
  · exact hi.toExec sid p _ hf ses hs

theorem Inv.memory {s : Sys} (hi : Inv (view s)) (sid : Sid) (p : Plan) (hf : sid ∉ (view s).flight)
    (ses : Ses) (hs : s.sessions sid = some ses) : Inv (view (memory s sid p)) := by
  cases p with
  | createDb d => exact hi.post sid true hf ses hs
  | dropDb d => exact hi.post sid true hf ses hs
  | createColl c =>
    unfold Node.memory
    simp only
    split
    · exact hi.post sid true hf ses hs
    · exact Inv.post (s := { s with mem := _, gen := _ }) hi sid true hf ses hs
  | dropColl c =>
    unfold Node.memory
    simp only
    split
    · exact Inv.post (s := { s with mem := _ }) hi sid true hf ses hs
    · exact hi
  | insert c d => exact hi.exec sid _ c hf ses hs
  | delete c d => exact hi.exec sid _ c hf ses hs
  | update c d => exact hi.exec sid _ c hf ses hs
  | find c => exact hi.exec sid _ c hf ses hs

/-- A new session. -/
theorem Inv.session {s : Sys} (hi : Inv (view s)) (sid : Sid) (ses : Ses) (hf : sid ∉ (view s).flight) (hn : s.sessions sid = none)
    (hr : if ses.replay then ∃ k, sid = .replay k else (∃ k, sid = .client k) ∧ s.open' sid = some (ses.serial, ses.plan)) :
    Inv (view (makeSession s sid ses)) ∧ (makeSession s sid ses).sessions sid = some ses ∧ (view (makeSession s sid ses)).flight = (view s).flight := by
  have e : makeSession s sid ses = { s with sessions := set s.sessions sid (some ses) } := by unfold makeSession; rw [hn]
  rw [e]
  have old : ∀ x, x ∈ (view s).flight → set s.sessions sid (some ses) x = s.sessions x := fun x hx => set_other _ _ _ _ (fun e => hf (e ▸ hx))
  refine ⟨⟨hi.nodup, ?_, ?_, ?_, ?_, ?_, hi.waits, hi.answered, ?_⟩, set_same _ _ _, rfl⟩
  · intro x n p h
    obtain ⟨a, b, c⟩ := hi.fresh x n p h
    exact ⟨a, b, (old x (sid_mem (v := view s) h)).trans c⟩
  · intro x y h hy
    by_cases e : x = sid
    · subst e
      have : some ses = some y := (set_same s.sessions x (some ses)).symm.trans h
      injection this with this
      subst this
      rw [if_neg (by rw [hy]; simp)] at hr
      exact hr
    · exact hi.client x y ((set_other _ _ _ _ e).symm.trans h) hy
  · intro x y h hy
    by_cases e : x = sid
    · subst e
      have : some ses = some y := (set_same s.sessions x (some ses)).symm.trans h
      injection this with this
      subst this
      rw [hy] at hr
      simpa using hr
    · exact hi.back x y ((set_other _ _ _ _ e).symm.trans h) hy
  · intro x n p h
    exact (old x (wal_mem (v := view s) h)).trans (hi.toLog x n p h)
  · intro x id h
    obtain ⟨y, a, b⟩ := hi.logged x id h
    exact ⟨y, (old x (sid_mem (v := view s) h)).trans a, b⟩
  · intro x hx
    obtain ⟨y, hy⟩ := hi.held x hx
    exact ⟨y, (old x (exec_mem (v := view s) hx)).trans hy⟩

theorem Inv.execPlan {s : Sys} (hi : Inv (view s)) (sid : Sid) (ses : Ses) (hf : sid ∉ (view s).flight) (hn : s.sessions sid = none)
    (hr : if ses.replay then ∃ k, sid = .replay k else (∃ k, sid = .client k) ∧ s.open' sid = some (ses.serial, ses.plan)) :
    Inv (view (execPlan s sid ses)) := by
  obtain ⟨h1, h2, h3⟩ := hi.session sid ses hf hn hr
  unfold Node.execPlan
  show Inv (view (if admit (makeSession s sid ses).cat ses.plan then _ else _))
  split
  · exact h1.memory sid ses.plan (by rw [h3]; exact hf) ses h2
  · exact h1.finish sid false (by rw [h3]; exact hf)

/-- Taking the first message of the dispatcher. -/
theorem Inv.take {s : Sys} {m : DMsg} {ms : List DMsg} (hi : Inv (view s)) (h : s.disp = m :: ms) :
    Inv (view { s with disp := ms }) ∧ m.sid ∉ (view { s with disp := ms }).flight := by
  have hsub : ∀ x ∈ ms, x ∈ (view s).disp := fun x hx => by show x ∈ s.disp; rw [h]; exact List.mem_cons_of_mem _ hx
  have hnd : (m.sid :: (view { s with disp := ms }).flight).Nodup := by
    have := hi.nodup
    unfold View.flight at this
    have e : (view s).disp = m :: ms := h
    rw [e] at this
    exact this
  have hfl : ∀ x ∈ (view { s with disp := ms }).flight, x ∈ (view s).flight := by
    intro x hx
    rcases List.mem_append.mp hx with hx | hx
    · obtain ⟨y, hy, e⟩ := List.mem_map.mp hx
      exact e ▸ sid_mem (v := view s) (hsub y hy)
    · exact List.mem_append_right _ hx
  rw [List.nodup_cons] at hnd
  exact ⟨⟨hnd.2, fun x n p hx => hi.fresh x n p (hsub _ hx), hi.client, hi.back, hi.toLog, fun x id hx => hi.logged x id (hsub _ hx),
    fun k hk => hi.waits k (hfl _ hk), hi.answered, hi.held⟩, hnd.1⟩

theorem Inv.disp {s : Sys} (hi : Inv (view s)) : Inv (view (dispStep s)) := by
  unfold dispStep
  cases h : s.disp with
  | nil => exact hi
  | cons m ms =>
    obtain ⟨h1, h2⟩ := hi.take h
    have hm : m ∈ (view s).disp := by show m ∈ s.disp; rw [h]; exact List.mem_cons_self
    cases m with
    | plan sid n p =>
      obtain ⟨a, b, c⟩ := hi.fresh sid n p hm
      exact Inv.execPlan (s := { s with disp := ms }) h1 sid ⟨n, p, false⟩ h2 c (by simpa using ⟨a, b⟩)
    | finish sid ok => exact Inv.finish (s := { s with disp := ms }) h1 sid ok h2
    | walOk sid id =>
      obtain ⟨y, a, b, c⟩ := hi.logged sid id hm
      refine Inv.walSuccess (s := { s with disp := ms }) h1 sid id h2 ?_
      intro ses hs _
      have : some y = some ses := a.symm.trans hs
      injection this with this
      exact this ▸ c

theorem Inv.execStep {s : Sys} (hi : Inv (view s)) : Inv (view (execStep s)) := by
  unfold Node.execStep
  cases h : s.exec with
  | nil => exact hi
  | cons m ms =>
    obtain ⟨sid, g, p⟩ := m
    have e : (view s).exec = sid :: ms.map Prod.fst := by show s.exec.map Prod.fst = _; rw [h]; rfl
    have hnd : (sid :: (view { s with exec := ms }).flight).Nodup := by
      have := hi.nodup
      unfold View.flight at this
      rw [e] at this
      exact this.perm (by show (s.disp.map DMsg.sid ++ (sid :: _ ++ _)).Perm _; exact List.perm_middle)
    have hfl : ∀ x ∈ (view { s with exec := ms }).flight, x ∈ (view s).flight := by
      intro x hx
      unfold View.flight at hx ⊢
      rw [e]
      rcases List.mem_append.mp hx with hx | hx
      · exact List.mem_append_left _ hx
      · exact List.mem_append_right _ (List.mem_cons_of_mem _ hx)
    rw [List.nodup_cons] at hnd
    have h1 : Inv (view { s with exec := ms }) :=
      ⟨hnd.2, hi.fresh, hi.client, hi.back, hi.toLog, hi.logged, fun k hk => hi.waits k (hfl _ hk), hi.answered,
        fun x hx => hi.held x (by rw [e]; exact List.mem_cons_of_mem _ hx)⟩
    obtain ⟨ses, hs⟩ := hi.held sid (by rw [e]; exact List.mem_cons_self)
    show Inv (view (match p.coll with | none => _ | some c => _))
    split
    · exact h1
    · split
      · exact h1
      · split
        · exact Inv.post (s := { s with exec := ms, mem := _, cmds := _ }) h1 sid true hnd.1 ses hs
        · exact h1

theorem Inv.walStep {s : Sys} (hi : Inv (view s)) : Inv (view (walStep s)) := by
  unfold Node.walStep
  cases h : s.wal with
  | nil => exact hi
  | cons m ms =>
    obtain ⟨sid, n, p⟩ := m
    have e : (view s).wal = (sid, n, p) :: ms := h
    have hs : s.sessions sid = some ⟨n, p, false⟩ := hi.toLog sid n p (by rw [e]; exact List.mem_cons_self)
    have hsub : ∀ x ∈ ms, x ∈ (view s).wal := fun x hx => by rw [e]; exact List.mem_cons_of_mem _ hx
    have hkeep : ∀ n' p', (view s).has n' p' → (view { s with wal := ms, log := s.log ++ [⟨lastId s.log + 1, n, p⟩], disp := s.disp ++ [.walOk sid (lastId s.log + 1)] }).has n' p' := by
      intro n' p' ⟨i, hi'⟩
      exact ⟨i, List.mem_append_left _ hi'⟩
    show Inv (view { s with wal := ms, log := s.log ++ [⟨lastId s.log + 1, n, p⟩], disp := s.disp ++ [.walOk sid (lastId s.log + 1)] })
    have hperm : ((view { s with wal := ms, log := s.log ++ [⟨lastId s.log + 1, n, p⟩], disp := s.disp ++ [.walOk sid (lastId s.log + 1)] }).flight).Perm (view s).flight := by
      show ((s.disp ++ [DMsg.walOk sid (lastId s.log + 1)]).map DMsg.sid ++ (s.exec.map Prod.fst ++ ms.map Prod.fst)).Perm
        (s.disp.map DMsg.sid ++ (s.exec.map Prod.fst ++ (view s).wal.map Prod.fst))
      rw [e, List.map_append, List.append_assoc]
      refine List.Perm.append_left _ ?_
      exact (List.perm_middle (l₁ := s.exec.map Prod.fst)).symm
    refine ⟨hi.nodup.perm hperm.symm, ?_, hi.client, hi.back, fun x a b hx => hi.toLog x a b (hsub _ hx), ?_, ?_, ?_, hi.held⟩
    · intro x a b hx
      rcases List.mem_append.mp hx with hx | hx
      · exact hi.fresh x a b hx
      · exact absurd (List.mem_singleton.mp hx) (by simp)
    · intro x id hx
      rcases List.mem_append.mp hx with hx | hx
      · obtain ⟨y, a, b, c⟩ := hi.logged x id hx
        exact ⟨y, a, b, hkeep _ _ c⟩
      · have := List.mem_singleton.mp hx
        injection this with h1 h2
        subst h1
        exact ⟨⟨n, p, false⟩, hs, rfl, ⟨lastId s.log + 1, List.mem_append_right _ (List.mem_singleton.mpr rfl)⟩⟩
    · intro k hk
      exact hi.waits k (hperm.mem_iff.mp hk)
    · intro a b hx hd
      exact hkeep _ _ (hi.answered a b hx hd)

theorem Inv.request {s : Sys} (hi : Inv (view s)) (k : Nat) (p : Plan) :
    Inv (view (request s k p)) := by
  unfold Node.request
  split
  · cases ho : s.open' (.client k) with
    | some x => exact hi
    | none =>
      show Inv (view { s with open' := set s.open' (.client k) (some (s.next, p)), next := s.next + 1, disp := s.disp ++ [.plan (.client k) s.next p] })
      have hf : Sid.client k ∉ (view s).flight := fun h => hi.waits k h ho
      have hns' : s.sessions (.client k) = none := by
        cases hs : s.sessions (.client k) with
        | none => rfl
        | some ses =>
          cases hr : ses.replay with
          | true => exact absurd (hi.back _ ses hs hr) (by simp)
          | false =>
            have h := (hi.client _ ses hs hr).2
            rw [show (view s).open' (.client k) = none from ho] at h
            exact absurd h (by simp)
      have ne : ∀ {x : Sid} {b : Nat × Plan}, s.open' x = some b → x ≠ Sid.client k := by
        intro x b hb e
        rw [e, ho] at hb
        exact absurd hb (by simp)
      refine ⟨?_, ?_, ?_, hi.back, hi.toLog, ?_, ?_, hi.answered, hi.held⟩
      · have := (nodup_mid (x := Sid.client k) hi.nodup hf).1
        show ((s.disp ++ [DMsg.plan (.client k) s.next p]).map DMsg.sid ++ _).Nodup
        rw [List.map_append]
        exact this
      · intro x a b hx
        rcases List.mem_append.mp hx with hx | hx
        · obtain ⟨h1, h2, h3⟩ := hi.fresh x a b hx
          exact ⟨h1, (set_other _ _ _ _ (ne h2)).trans h2, h3⟩
        · have := List.mem_singleton.mp hx
          injection this with h1 h2 h3
          subst h1; subst h2; subst h3
          exact ⟨⟨k, rfl⟩, set_same _ _ _, hns'⟩
      · intro x y hx hy
        obtain ⟨h1, h2⟩ := hi.client x y hx hy
        exact ⟨h1, (set_other _ _ _ _ (ne h2)).trans h2⟩
      · intro x id hx
        rcases List.mem_append.mp hx with hx | hx
        · exact hi.logged x id hx
        · exact absurd (List.mem_singleton.mp hx) (by simp)
      · intro j hj
        show set _ _ _ _ ≠ none
        by_cases e : Sid.client j = Sid.client k
        · rw [e, set_same]; simp
        · rw [set_other _ _ _ _ e]
          refine hi.waits j ?_
          unfold View.flight at hj ⊢
          simp only [view, List.map_append, List.map_cons, List.map_nil, List.mem_append, List.mem_singleton, DMsg.sid] at hj ⊢
          rcases hj with (hj | hj) | hj
          · exact .inl hj
          · exact absurd hj e
          · exact .inr hj
  · exact hi

end Verif.Node
