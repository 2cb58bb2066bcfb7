import Verif.Node.LogLemmas
/-!
C07: a success reported for a change of the data stands for a record in the log, for every schedule of the actors and every crash.
-/
namespace Verif.Node

/-- A step on behalf of one session. -/
def Near (s t : Sys) (sid : Sid) : Prop :=
  (∀ x, x ∈ (view t).flight → x = sid ∨ x ∈ (view s).flight) ∧ ∀ x, x ≠ sid → t.sessions x = s.sessions x

theorem Near.refl (s : Sys) (sid : Sid) : Near s s sid := ⟨fun _ h => .inr h, fun _ _ => rfl⟩

theorem Near.trans {s t u : Sys} {sid : Sid} (a : Near s t sid) (b : Near t u sid) : Near s u sid :=
  ⟨fun x h => (b.1 x h).elim .inl (a.1 x), fun x h => (b.2 x h).trans (a.2 x h)⟩

theorem near_post (s : Sys) (sid : Sid) (ok : Bool) : Near s (post s sid ok) sid :=
  ⟨fun x h => (flight_post s sid ok x).mp h, fun _ _ => rfl⟩

theorem near_toExec (s : Sys) (sid : Sid) (p : Plan) (c : Coll) : Near s (toExec s sid p c) sid := by
  unfold toExec
  split
  · exact Near.refl s sid
  · rename_i g _ _
    refine ⟨fun x h => ?_, fun _ _ => rfl⟩
    have h : x ∈ s.disp.map DMsg.sid ++ ((s.exec ++ [(sid, g, p)]).map Prod.fst ++ s.wal.map Prod.fst) := h
    show x = sid ∨ x ∈ s.disp.map DMsg.sid ++ (s.exec.map Prod.fst ++ s.wal.map Prod.fst)
    rw [List.map_append] at h
    simp only [List.mem_append, List.map_cons, List.map_nil, List.mem_singleton] at h ⊢
    tauto

theorem near_memory (s : Sys) (sid : Sid) (p : Plan) : Near s (memory s sid p) sid := by
  cases p with
  | createDb d => exact near_post _ _ _
  | dropDb d => exact near_post _ _ _
  | createColl c =>
    unfold memory
    simp only
    split
    · exact near_post _ _ _
    · exact near_post { s with mem := _, gen := _ } _ _
  | dropColl c =>
    unfold memory
    simp only
    split
    · exact near_post { s with mem := _ } _ _
    · exact Near.refl s sid
  | insert c d => exact near_toExec _ _ _ _
  | delete c d => exact near_toExec _ _ _ _
  | update c d => exact near_toExec _ _ _ _
  | find c => exact near_toExec _ _ _ _

theorem near_makeSession (s : Sys) (sid : Sid) (ses : Ses) : Near s (makeSession s sid ses) sid := by
  unfold makeSession
  split
  · exact Near.refl s sid
  · exact ⟨fun _ h => .inr h, fun _ h => set_other _ _ _ _ h⟩

theorem near_reply (s : Sys) (sid : Sid) (ok : Bool) : Near s (reply s sid ok) sid := by
  unfold reply
  split
  · exact ⟨fun _ h => .inr h, fun _ h => set_other _ _ _ _ h⟩
  · exact ⟨fun _ h => .inr h, fun _ h => set_other _ _ _ _ h⟩

theorem near_refuse (s : Sys) (sid : Sid) : Near s (finishPlan s sid false) sid := by
  unfold finishPlan
  split
  · exact Near.refl s sid
  · rw [if_neg (by simp)]
    unfold done
    split
    · exact Near.refl s sid
    · exact near_reply _ _ _

theorem near_execPlan (s : Sys) (sid : Sid) (ses : Ses) : Near s (execPlan s sid ses) sid := by
  refine (near_makeSession s sid ses).trans ?_
  unfold execPlan
  show Near _ (if admit (makeSession s sid ses).cat ses.plan then _ else _) _
  split
  · exact near_memory _ _ _
  · exact near_refuse _ _

theorem inv_replay (rs : List Rec) : ∀ (s : Sys) (k : Nat), Inv (view s) →
    (∀ j, k ≤ j → Sid.replay j ∉ (view s).flight ∧ s.sessions (.replay j) = none) → Inv (view (replayFrom s k rs)) := by
  induction rs with
  | nil => intro s k h _; exact h
  | cons r rs ih =>
    intro s k h hf
    show Inv (view (if s.dead then s else replayFrom (execPlan s (.replay k) ⟨r.serial, r.plan, true⟩) (k + 1) rs))
    split
    · exact h
    · have hn := near_execPlan s (.replay k) ⟨r.serial, r.plan, true⟩
      refine ih _ _ (h.execPlan (.replay k) ⟨r.serial, r.plan, true⟩ (hf k (Nat.le_refl k)).1 (hf k (Nat.le_refl k)).2 (by simp)) ?_
      intro j hj
      have hne : Sid.replay j ≠ Sid.replay k := fun e => by injection e with e; omega
      refine ⟨fun hx => (hn.1 _ hx).elim hne (hf j (by omega)).1, ?_⟩
      rw [hn.2 _ hne]
      exact (hf j (by omega)).2

theorem inv_blank (s : Sys) (hd : s.disp = []) (he : s.exec = []) (hw : s.wal = []) (hs : s.sessions = fun _ => none)
    (ha : ∀ n p, (n, p, true) ∈ s.answers → Durable p → (view s).has n p) : Inv (view s) := by
  have d : (view s).disp = [] := hd
  have e : (view s).exec = [] := by show s.exec.map _ = []; rw [he]; rfl
  have w : (view s).wal = [] := hw
  have f : (view s).flight = [] := by unfold View.flight; rw [d, e, w]; rfl
  have ss : (view s).sessions = fun _ => none := hs
  refine ⟨?_, ?_, ?_, ?_, ?_, ?_, ?_, ha, ?_⟩
  · rw [f]; exact List.nodup_nil
  · intro x n p h; rw [d] at h; exact absurd h (by simp)
  · intro x n h; rw [ss] at h; exact absurd h (by simp)
  · intro x n h; rw [ss] at h; exact absurd h (by simp)
  · intro x n p h; rw [w] at h; exact absurd h (by simp)
  · intro x n h; rw [d] at h; exact absurd h (by simp)
  · intro k h; rw [f] at h; exact absurd h (by simp)
  · intro k h; rw [e] at h; exact absurd h (by simp)

theorem Inv.restart {s : Sys} (hi : Inv (view s)) : Inv (view (restart s)) := by
  unfold Node.restart
  simp only
  split
  · exact inv_blank _ rfl rfl rfl rfl hi.answered
  · exact inv_replay _ _ _ (inv_blank _ rfl rfl rfl rfl hi.answered) (fun j _ => ⟨by simp [View.flight, view, init], rfl⟩)

theorem Inv.step {s : Sys} (hi : Inv (view s)) (e : Event) : Inv (view (step s e)) := by
  cases e with
  | crash => exact hi.restart
  | request k p => unfold Node.step; simp only; split; exact hi; exact hi.request k p
  | disp => unfold Node.step; simp only; split; exact hi; exact hi.disp
  | exec => unfold Node.step; simp only; split; exact hi; exact hi.execStep
  | wal => unfold Node.step; simp only; split; exact hi; exact hi.walStep
  | agent =>
    unfold Node.step; simp only; split
    · exact hi
    · have : view (agentStep s) = view s := by
        unfold agentStep
        split
        · rfl
        · split <;> first | rfl | (split <;> rfl)
      rw [this]; exact hi

theorem Inv.run (es : List Event) : ∀ {s : Sys}, Inv (view s) → Inv (view (run s es)) := by
  induction es with
  | nil => intro s h; exact h
  | cons e es ih => intro s h; exact ih (h.step e)

theorem inv_init : Inv (view init) := inv_blank init rfl rfl rfl rfl (fun _ _ h => absurd h (by simp [init]))

/-- C07: whatever the clients ask, in whatever order the dispatcher, the executor, the log and the disk take their messages, and however
often the process crashes and starts again: a request that changes the data (other than dropping a database) and was answered with
success has its record in the log. -/
theorem C07_logged (es : List Event) (n : Nat) (p : Plan) (h : (n, p, true) ∈ (run init es).answers) (hp : Durable p) :
    InLog (run init es) n p :=
  (Inv.run es inv_init).answered n p h hp

theorem log_mono_memory (s : Sys) (sid : Sid) (p : Plan) : (memory s sid p).log = s.log := by
  cases p <;> unfold memory toExec <;> simp only <;> first | rfl | (split <;> rfl)

theorem log_execPlan (s : Sys) (sid : Sid) (ses : Ses) : (execPlan s sid ses).log = s.log := by
  have hm : (makeSession s sid ses).log = s.log := by unfold makeSession; split <;> rfl
  unfold execPlan
  show (if admit (makeSession s sid ses).cat ses.plan then _ else _ : Sys).log = _
  split
  · rw [log_mono_memory, hm]
  · unfold finishPlan
    split
    · exact hm
    · rw [if_neg (by simp)]
      unfold done reply
      split
      · exact hm
      · split <;> exact hm

theorem log_walSuccess (s : Sys) (sid : Sid) (id : Nat) : (walSuccess s sid id).log = s.log := by
  have hu : ∀ p, (updateCat s p).log = s.log := fun p => congrArg View.log (view_updateCat s p)
  unfold walSuccess
  split
  · rfl
  · rename_i ses _
    show (if (updateCat s ses.plan).dead then updateCat s ses.plan
      else if ses.replay then flush (updateCat s ses.plan) sid id else reply (flush (updateCat s ses.plan) sid id) sid true).log = _
    split
    · exact hu _
    · split
      · exact hu _
      · unfold reply; split <;> exact hu _

theorem log_done (s : Sys) (sid : Sid) (ses : Ses) (ok : Bool) : (done s sid ses ok).log = s.log := by
  unfold done reply
  split
  · rfl
  · split <;> rfl

theorem log_logged (s : Sys) (sid : Sid) (ses : Ses) : (logged s sid ses).log = s.log := by
  unfold logged
  split
  · rw [log_done, log_walSuccess]
  · rfl

theorem log_finish (s : Sys) (sid : Sid) (ok : Bool) : (finishPlan s sid ok).log = s.log := by
  unfold finishPlan
  split
  · rfl
  · split
    · split <;> first | exact log_logged _ _ _ | exact log_done _ _ _ _
    · exact log_done _ _ _ _

theorem log_replay (rs : List Rec) : ∀ (s : Sys) (k : Nat), (replayFrom s k rs).log = s.log := by
  induction rs with
  | nil => intro s k; rfl
  | cons r rs ih =>
    intro s k
    show (if s.dead then s else replayFrom (execPlan s (.replay k) ⟨r.serial, r.plan, true⟩) (k + 1) rs).log = _
    split
    · rfl
    · rw [ih, log_execPlan]

theorem log_step (s : Sys) (e : Event) : ∃ l, (step s e).log = s.log ++ l := by
  cases e with
  | crash =>
    refine ⟨[], ?_⟩
    show (restart s).log = _
    unfold restart
    simp only
    rw [List.append_nil]
    split
    · rfl
    · rw [log_replay]
  | request k p =>
    refine ⟨[], ?_⟩
    unfold step request
    simp only [List.append_nil]
    split
    · rfl
    · split
      · split <;> rfl
      · rfl
  | disp =>
    refine ⟨[], ?_⟩
    unfold step dispStep
    simp only [List.append_nil]
    split
    · rfl
    · split
      · rfl
      · split
        · exact log_execPlan _ _ _
        · exact log_finish _ _ _
        · exact log_walSuccess _ _ _
  | exec =>
    refine ⟨[], ?_⟩
    unfold step execStep
    simp only [List.append_nil]
    split
    · rfl
    · split
      · rfl
      · split
        · rfl
        · split
          · rfl
          · split <;> rfl
  | wal =>
    unfold step walStep
    simp only
    split
    · exact ⟨[], (List.append_nil _).symm⟩
    · split
      · exact ⟨[], (List.append_nil _).symm⟩
      · exact ⟨_, rfl⟩
  | agent =>
    refine ⟨[], ?_⟩
    unfold step agentStep
    simp only [List.append_nil]
    split
    · rfl
    · split
      · rfl
      · split <;> first | rfl | (split <;> rfl)

/-- C07: the log keeps its records: whatever happens next, crashes included, the log only grows at its end. -/
theorem C07_kept (es : List Event) : ∀ s : Sys, ∃ l, (run s es).log = s.log ++ l := by
  induction es with
  | nil => intro s; exact ⟨[], (List.append_nil _).symm⟩
  | cons e es ih =>
    intro s
    obtain ⟨l, hl⟩ := log_step s e
    obtain ⟨m, hm⟩ := ih (step s e)
    exact ⟨l ++ m, by show (run (step s e) es).log = _; rw [hm, hl, List.append_assoc]⟩

/-- A schedule with two clients, messages out of step, and a crash before the third answer. -/
def storm : List Event :=
  ask 0 (.createDb 1) ++ ask 0 (.createColl ⟨1, 1⟩) ++
  [.request 3 (.insert ⟨1, 1⟩ [⟨5, 50⟩]), .request 4 (.insert ⟨1, 1⟩ [⟨6, 60⟩]), .disp, .disp, .exec, .disp, .exec, .agent, .wal, .disp, .disp, .crash]

/-- The hypotheses are met: two requests are answered, the third was answered through the log, the fourth was not. -/
example : (run init storm).answers.map (fun a => (a.1, a.2.2)) = [(2, true), (1, true), (0, true)] := by decide +kernel

example : (run init storm).log.map (fun r => (r.id, r.serial)) = [(1, 0), (2, 1), (3, 2)] := by decide +kernel

/-- Dropping a database is answered with success and leaves no record, so the full claim fails. -/
def C07_logged_claim : Prop := ∀ es n p, (n, p, true) ∈ (run init es).answers → (∀ c, p ≠ .find c) → InLog (run init es) n p

theorem C07_dropDb_fails : ¬ C07_logged_claim := by
  intro h
  have := h (ask 0 (.createDb 1) ++ ask 0 (.dropDb 1)) 1 (.dropDb 1) (by
    have e : (run init (ask 0 (.createDb 1) ++ ask 0 (.dropDb 1))).answers = [(1, .dropDb 1, true), (0, .createDb 1, true)] := rfl
    rw [e]; exact List.mem_cons_self) (fun c e => by cases e)
  obtain ⟨id, hid⟩ := this
  have e : (run init (ask 0 (.createDb 1) ++ ask 0 (.dropDb 1))).log = [⟨1, 0, .createDb 1⟩] := rfl
  rw [e] at hid
  have := List.mem_singleton.mp hid
  injection this with _ h2
  exact absurd h2 (by simp)

end Verif.Node
