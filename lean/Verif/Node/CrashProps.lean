import Verif.Node.RecoverLemmas
/-!
C08 with a crash at any moment: many clients insert and delete, the disk agent is behind, the process ends and starts again.
-/
namespace Verif.Node

/-! ## The numbers of the records -/

/-- The numbers of the records grow, from 1. -/
def Growing (l : List Rec) : Prop := l.Pairwise (fun a b => a.id < b.id) ∧ ∀ r ∈ l, 0 < r.id

theorem growing_last {l : List Rec} (h : Growing l) : ∀ r ∈ l, r.id ≤ lastId l := by
  induction l using List.reverseRecOn with
  | nil => intro r hr; exact absurd hr (by simp)
  | append_singleton l x _ =>
    intro r hr
    rw [lastId_snoc]
    rcases List.mem_append.mp hr with hr | hr
    · exact Nat.le_of_lt ((List.pairwise_append.mp h.1).2.2 r hr x List.mem_cons_self)
    · rw [List.mem_singleton.mp hr]

theorem growing_snoc {l : List Rec} (h : Growing l) (n : Nat) (p : Plan) : Growing (l ++ [⟨lastId l + 1, n, p⟩]) := by
  refine ⟨List.pairwise_append.mpr ⟨h.1, List.pairwise_singleton _ _, ?_⟩, ?_⟩
  · intro a ha b hb
    rw [List.mem_singleton.mp hb]
    exact Nat.lt_succ_of_le (growing_last h a ha)
  · intro r hr
    rcases List.mem_append.mp hr with hr | hr
    · exact h.2 r hr
    · rw [List.mem_singleton.mp hr]; exact Nat.succ_pos _

/-- The records after a given one. -/
theorem growing_filter {l r : List Rec} (h : Growing (l ++ r)) : (l ++ r).filter (fun x => lastId l < x.id) = r := by
  have hp := List.pairwise_append.mp h.1
  have hl : Growing l := ⟨hp.1, fun x hx => h.2 x (List.mem_append_left _ hx)⟩
  rw [List.filter_append]
  have e1 : l.filter (fun x => lastId l < x.id) = [] := by
    rw [List.filter_eq_nil_iff]
    intro x hx
    have := growing_last hl x hx
    simp only [decide_eq_true_eq]
    omega
  have e2 : r.filter (fun x => lastId l < x.id) = r := by
    rw [List.filter_eq_self]
    intro x hx
    simp only [decide_eq_true_eq]
    cases hg : l.getLast? with
    | none =>
      have : lastId l = 0 := by unfold lastId; rw [hg]
      rw [this]; exact h.2 x (List.mem_append_right _ hx)
    | some y =>
      have : lastId l = y.id := by unfold lastId; rw [hg]
      rw [this]
      exact hp.2.2 y (List.mem_of_getLast? hg) x hx
  rw [e1, e2, List.nil_append]

theorem log_steps (s : Sys) (e : Event) : (step s e).log = s.log ∨ ∃ n p, (step s e).log = s.log ++ [⟨lastId s.log + 1, n, p⟩] := by
  cases e with
  | wal =>
    unfold step walStep
    simp only
    split
    · exact .inl rfl
    · split
      · exact .inl rfl
      · exact .inr ⟨_, _, rfl⟩
  | crash =>
    left
    show (restart s).log = _
    unfold restart
    simp only
    split
    · rfl
    · rw [log_replay]
  | request k p =>
    left
    unfold step request
    simp only
    split
    · rfl
    · split
      · split <;> rfl
      · rfl
  | disp =>
    left
    unfold step dispStep
    simp only
    split
    · rfl
    · split
      · rfl
      · split
        · exact log_execPlan _ _ _
        · exact log_finish _ _ _
        · exact log_walSuccess _ _ _
  | exec =>
    left
    unfold step execStep
    simp only
    split
    · rfl
    · split
      · rfl
      · split
        · rfl
        · split
          · rfl
          · split <;> rfl
  | agent =>
    left
    unfold step agentStep
    simp only
    split
    · rfl
    · split
      · rfl
      · split <;> first | rfl | (split <;> rfl)

theorem growing_run (es : List Event) : ∀ s : Sys, Growing s.log → Growing (run s es).log := by
  induction es with
  | nil => intro s h; exact h
  | cons e es ih =>
    intro s h
    refine ih (step s e) ?_
    rcases log_steps s e with h1 | ⟨n, p, h1⟩
    · rw [h1]; exact h
    · rw [h1]; exact growing_snoc h n p

theorem growing_init : Growing init.log := ⟨List.Pairwise.nil, fun _ h => absurd h (by simp [init])⟩

/-! ## Before the crash -/

theorem agent_execPlan (s : Sys) (sid : Sid) (ses : Ses) : (execPlan s sid ses).agent = s.agent ∧ (execPlan s sid ses).disk = s.disk := by
  have hmem : ∀ t : Sys, (memory t sid ses.plan).agent = t.agent ∧ (memory t sid ses.plan).disk = t.disk := by
    intro t
    unfold memory
    split <;> first | exact ⟨rfl, rfl⟩ | (split <;> exact ⟨rfl, rfl⟩) | (unfold toExec; split <;> exact ⟨rfl, rfl⟩)
  have hdone : ∀ (t : Sys) (x : Ses), (done t sid x false).agent = t.agent ∧ (done t sid x false).disk = t.disk := by
    intro t x
    unfold done reply
    split
    · exact ⟨rfl, rfl⟩
    · split <;> exact ⟨rfl, rfl⟩
  have hfin : ∀ t : Sys, (finishPlan t sid false).agent = t.agent ∧ (finishPlan t sid false).disk = t.disk := by
    intro t
    unfold finishPlan
    split
    · exact ⟨rfl, rfl⟩
    · exact hdone t _
  have hmk : (makeSession s sid ses).agent = s.agent ∧ (makeSession s sid ses).disk = s.disk := by
    unfold makeSession; split <;> exact ⟨rfl, rfl⟩
  unfold execPlan
  simp only
  split
  · exact ⟨(hmem _).1.trans hmk.1, (hmem _).2.trans hmk.2⟩
  · exact ⟨(hfin _).1.trans hmk.1, (hfin _).2.trans hmk.2⟩

/-- The node before the crash. -/
def Before (s0 s : Sys) : Prop := ∃ A B, Mid s0 s A B ∧ At s0 A s.agent s.disk

theorem Before.step {s0 s : Sys} (h : Before s0 s) (hh : Home s0) (hs : ∀ c, Sorted (docs s0 c)) (e : Event) (he : Calm e) : Before s0 (step s e) := by
  obtain ⟨A, B, hm, hat⟩ := h
  unfold Node.step
  cases e with
  | crash => exact absurd he (by simp [Calm])
  | request k p =>
    simp only; rw [if_neg (by rw [hm.live]; simp)]
    refine ⟨A, B, hm.request k p he, ?_⟩
    unfold request
    split
    · split
      · exact hat
      · exact hat
    · exact hat
  | exec =>
    simp only; rw [if_neg (by rw [hm.live]; simp)]
    refine ⟨A, B, hm.exec, ?_⟩
    unfold execStep
    split
    · exact hat
    · simp only
      split
      · exact hat
      · split
        · exact hat
        · split <;> exact hat
  | wal =>
    simp only; rw [if_neg (by rw [hm.live]; simp)]
    obtain ⟨B', hm'⟩ := hm.wal
    refine ⟨A, B', hm', ?_⟩
    unfold walStep
    split <;> exact hat
  | agent =>
    simp only; rw [if_neg (by rw [hm.live]; simp)]
    obtain ⟨a, k, e, hat'⟩ := hat.step hs hm.seen
    rw [e]
    exact ⟨A, B, ⟨hm.inv, hm.cat, hm.live, hm.log, hm.oks, hm.held, hm.seen, hm.logged, hm.queued, hm.fins, hm.news, hm.exs, hm.ses, hm.mem, hm.cmds, hm.clear⟩, hat'⟩
  | disp =>
    simp only; rw [if_neg (by rw [hm.live]; simp)]
    cases hd : s.disp with
    | nil =>
      have : dispStep s = s := by unfold dispStep; rw [hd]
      rw [this]; exact ⟨A, B, hm, hat⟩
    | cons m ms =>
      cases m with
      | plan sid n p =>
        refine ⟨A, B, hm.plan hh hd, ?_⟩
        have e : dispStep s = execPlan { s with disp := ms } sid ⟨n, p, false⟩ := by unfold dispStep; rw [hd]
        obtain ⟨h1, h2⟩ := agent_execPlan { s with disp := ms } sid ⟨n, p, false⟩
        rw [e, h1, h2]
        exact hat
      | finish sid ok =>
        refine ⟨A, B, hm.finish hd, ?_⟩
        obtain ⟨hok, n, p, hses⟩ := hm.fins sid ok (by rw [hd]; exact List.mem_cons_self)
        subst hok
        obtain ⟨hp, _⟩ := hm.ses sid n p hses
        have hopen : s.open' sid = some (n, p) := (hm.inv.client sid _ hses rfl).2
        have e : dispStep s = finishPlan { s with disp := ms } sid true := by unfold dispStep; rw [hd]
        rw [e]
        cases hw : p.writes with
        | true => rw [finish_write { s with disp := ms } sid n p hses hw]; exact hat
        | false => rw [finish_find { s with disp := ms } sid n p hses hp hw hopen]; exact hat
      | walOk sid id =>
        obtain ⟨r, B', _, hm', ha, hk⟩ := hm.walOk hd
        refine ⟨A ++ [r], B', hm', ?_⟩
        rw [ha, hk]
        obtain ⟨h1, h2, _⟩ := hm'.seen r (by simp)
        exact hat.push r h1 h2

theorem Before.run {s0 : Sys} (hh : Home s0) (hs : ∀ c, Sorted (docs s0 c)) (es : List Event) : ∀ {s : Sys}, Before s0 s → (∀ e ∈ es, Calm e) → Before s0 (run s es) := by
  induction es with
  | nil => intro s h _; exact h
  | cons e es ih => intro s h he; exact ih (h.step hh hs e (he e List.mem_cons_self)) (fun x hx => he x (List.mem_cons_of_mem _ hx))

/-- The start of the schedule: nothing is under way. -/
theorem before_start {s0 : Sys} {w : World} (hc : Clean s0 w) (ha : s0.agent = []) (hi : Inv (view s0)) :
    Before s0 s0 ∧ Home s0 ∧ (∀ c, Sorted (docs s0 c)) ∧ Synced s0.disk s0 := by
  obtain ⟨hr, hw, k, hk, hy⟩ := hc
  rw [ha] at hk
  injection hk with hk
  subst hk
  have hcc : ∀ c, s0.cat.computes c = s0.cat.colls c := by
    intro c
    unfold Cat.computes
    cases h : s0.cat.colls c with
    | false => simp
    | true => rw [hy.inside c h]; rfl
  have hdocs : ∀ c, s0.cat.computes c = true → ∃ t, s0.disk.trees c = some t ∧ loadDocs t = docs s0 c := by
    intro c h
    rw [hcc] at h
    obtain ⟨t, g, h1, h2⟩ := hy.trees c h
    exact ⟨t, h1, by unfold docs; rw [h2]⟩
  have hnone : ∀ c, s0.cat.computes c = false → docs s0 c = [] := by
    intro c h
    rw [hcc] at h
    unfold docs
    rw [(hy.others c h).2]
  refine ⟨⟨[], [], ?_, ?_⟩, ⟨hr.known⟩, ?_, hy⟩
  · have htodo : todo s0 [] = [] := by unfold todo; rw [hr.wal, hr.disp]; rfl
    refine ⟨hi, rfl, hr.live, by simp, by rw [hr.disp]; rfl, fun _ h => absurd h (by simp), fun _ h => absurd h (by simp), fun _ h => absurd h (by simp), ?_, ?_, ?_, ?_, ?_, ?_, ?_, ?_⟩
    · intro x hx; rw [hr.wal] at hx; exact absurd hx (by simp)
    · intro sid ok hx; rw [hr.disp] at hx; exact absurd hx (by simp)
    · intro sid n p hx; rw [hr.disp] at hx; exact absurd hx (by simp)
    · intro sid g p hx; rw [hr.exec] at hx; exact absurd hx (by simp)
    · intro sid n p hs
      obtain ⟨⟨k, hk⟩, _⟩ := hi.client sid _ hs rfl
      rw [hk, hr.free] at hs
      exact absurd hs (by simp)
    · intro c
      rw [htodo]
      show s0.mem c = (s0.mem c).map fun v => (v.1, docs s0 c)
      unfold docs
      cases s0.mem c <;> rfl
    · rw [htodo]; trivial
    · intro k _; exact hr.clear k
  · exact .idle ha ⟨rfl, rfl, hdocs, hnone⟩ (by rw [List.append_nil]; exact hy.wal)
  · intro c
    cases h : s0.cat.computes c with
    | true => obtain ⟨t, _, h2⟩ := hdocs c h; rw [← h2]; exact sorted_load t
    | false => rw [hnone c h]; exact List.Pairwise.nil

/-! ## The restart -/

/-- The restart hands out the records after the last one noted on the disk, and the documents on the disk together with them are those of the whole log. -/
theorem restart_replaying {s0 s : Sys} (hb : Before s0 s) (hy : Synced s0.disk s0) (hg : Growing s.log) :
    Replaying (restart s) (plays (docs s0) ((s.log.drop s0.log.length).map Rec.plan)) 0 := by
  obtain ⟨A, B, hm, hat⟩ := hb
  have hlog : s.log.drop s0.log.length = A ++ B.map Prod.snd := by rw [hm.log]; simp
  rw [hlog]
  have hall : ∀ r ∈ A ++ B.map Prod.snd, Again s0.cat r.plan := by
    intro r hr
    rcases List.mem_append.mp hr with hr | hr
    · exact hm.seen r hr
    · obtain ⟨b, hb, e⟩ := List.mem_map.mp hr
      obtain ⟨h1, h2⟩ := hm.ses _ _ _ (hm.held b hb)
      subst e
      exact ⟨h1, hm.logged b hb, h2⟩
  have hcc : ∀ c, s0.cat.computes c = (s0.disk.dbs.contains c.db && s0.disk.colls c) := by
    intro c; unfold Cat.computes; rw [hy.dbs, hy.colls]
  -- where the agent stopped
  have hX : ∃ X P R, DiskAt s0 X s.disk ∧ s.disk.wal = lastId (s0.log ++ P) ∧ A ++ B.map Prod.snd = P ++ R ∧
      plays X (R.map Rec.plan) = plays (docs s0) ((A ++ B.map Prod.snd).map Rec.plan) := by
    cases hat with
    | idle ha hk hw => exact ⟨_, A, B.map Prod.snd, hk, hw, rfl, by rw [List.map_append, plays_append]⟩
    | busy A1 r A3 rest X hA ha hk hw hp =>
      refine ⟨X, A1, r :: A3 ++ B.map Prod.snd, hk, hw, by rw [hA]; simp, ?_⟩
      obtain ⟨h1, h2, _⟩ := hm.seen r (by rw [hA]; simp)
      rw [hA]
      have : (A1 ++ r :: A3 ++ B.map Prod.snd).map Rec.plan = A1.map Rec.plan ++ (r.plan :: (A3 ++ B.map Prod.snd).map Rec.plan) := by simp
      rw [this, plays_append]
      show plays (play X r.plan) ((A3 ++ B.map Prod.snd).map Rec.plan) = plays (play _ r.plan) _
      rw [part_absorb hp h1 h2]
  obtain ⟨X, P, R, hk, hw, hPR, hpl⟩ := hX
  rw [← hpl]
  have hpend : pending s = R := by
    have e : s.log = s0.log ++ P ++ R := by rw [hm.log, hPR, List.append_assoc]
    unfold pending
    rw [hw]
    rw [e] at hg ⊢
    exact growing_filter hg
  have hR : ∀ r ∈ R, Again s0.cat r.plan := fun r hr => hall r (by rw [hPR]; exact List.mem_append_right _ hr)
  have hcat : ∀ c, (⟨s.disk.reopen.dbs.contains, s.disk.reopen.colls⟩ : Cat).computes c = s0.cat.computes c := by
    intro c
    show (s.disk.dbs.contains c.db && (s.disk.dbs.contains c.db && s.disk.colls c)) = _
    rw [hcc, hk.dbs, hk.colls]
    cases s0.disk.dbs.contains c.db <;> rfl
  unfold restart
  simp only
  rw [hpend]
  by_cases hd : s.disk.reopen.dbs = []
  · rw [if_pos hd]
    have hd' : s0.disk.dbs = [] := hk.dbs.symm.trans hd
    have hno : ∀ c, s0.cat.computes c = false := by intro c; rw [hcc, hd']; rfl
    have hR0 : R = [] := by
      cases R with
      | nil => rfl
      | cons r R =>
        obtain ⟨c, _, hc⟩ := again_coll (hR r List.mem_cons_self)
        rw [hno] at hc
        exact absurd hc (by simp)
    subst hR0
    refine ⟨rfl, rfl, rfl, fun _ h => absurd h (by simp [init]), fun _ h => absurd h (by simp [init]), fun c h => absurd h (by simp [init, Cat.computes]),
      fun _ h => absurd h (by simp [init]), fun _ _ h => absurd h (by simp [init]), ?_⟩
    funext c
    show ([] : List Doc) = X c
    rw [hk.others c (hno c)]
  · rw [if_neg hd]
    refine Replaying.giveAll R 0 ?_ ?_ (fun _ _ => rfl)
    · refine ⟨rfl, rfl, ?_, fun _ h => absurd h (by simp [init]), fun _ h => absurd h (by simp [init]), ?_, fun _ h => absurd h (by simp [init]), fun _ _ h => absurd h (by simp [init]), ?_⟩
      · show R.length = 0 + 0 + R.length
        omega
      · intro c hc
        have hc : s0.cat.computes c = true := (hcat c).symm.trans hc
        obtain ⟨t, h1, h2⟩ := hk.trees c hc
        have : s.disk.reopen.trees c = some t := by
          show (if s.disk.dbs.contains c.db && s.disk.colls c then some ((s.disk.trees c).getD []) else none) = _
          rw [hcc] at hc
          rw [hk.dbs, hk.colls, if_pos hc, h1]; rfl
        exact ⟨loadDocs t, t, by show loadMem _ c = _; unfold loadMem; rw [this]; rfl, this⟩
      · show docs _ = X
        funext c
        show (match loadMem s.disk.reopen c with | some (_, l) => l | none => []) = X c
        unfold loadMem
        show (match ((if s.disk.dbs.contains c.db && s.disk.colls c then some ((s.disk.trees c).getD []) else none).map fun l => (0, loadDocs l)) with
          | some (_, l) => l | none => []) = X c
        rw [hk.dbs, hk.colls, ← hcc]
        cases hc : s0.cat.computes c with
        | true => obtain ⟨t, h1, h2⟩ := hk.trees c hc; rw [h1]; exact h2
        | false => exact (hk.others c hc).symm
    · intro r hr
      obtain ⟨h1, h2, h3⟩ := hR r hr
      refine ⟨h1, h2, ?_⟩
      obtain ⟨c, hc⟩ := simple_coll h1
      rw [simple_admit h1 hc] at h3 ⊢
      exact (hcat c).trans h3

/-- Writes of lists and of maps. -/
theorem look_plays (ps : List Plan) : ∀ (D : Docs) (m : Store), (∀ c, Sorted (D c)) → (∀ p ∈ ps, Simple p ∧ p.writes = true) → (∀ c i, m c i = look (D c) i) →
    (fun c i => look (plays D ps c) i) = ps.foldl Store.after m := by
  induction ps with
  | nil => intro D m _ _ hm; funext c i; exact (hm c i).symm
  | cons p ps ih =>
    intro D m hs hp hm
    obtain ⟨h1, h2⟩ := hp p List.mem_cons_self
    obtain ⟨x, hx⟩ := simple_coll h1
    refine ih (play D p) (m.after p) (sorted_plays [p] D hs) (fun q hq => hp q (List.mem_cons_of_mem _ hq)) ?_
    intro c i
    unfold play
    rw [hx]
    show _ = look (set D x _ c) i
    by_cases e : c = x
    · subst e
      rw [set_same]
      refine (look_runPlan m c (D c) p (hs c) h2 hx ?_ (hm c) i).symm
      intro ds e
      subst e
      obtain ⟨d, rfl⟩ := h1
      simp
    · rw [set_other _ _ _ _ e, after_other m c x p h2 hx e i, hm]

/-- What the crash theorems need to know of the history. -/
theorem crash_facts (ms : List Move) (hp : ∀ p ∈ ms.filterMap Move.plan?, Plain p) (hq : World.empty.placed (ms.filterMap Move.plan?))
    (ha : (moves init ms).agent = []) (es : List Event) (he : ∀ e ∈ es, Calm e) :
    Before (moves init ms) (run (moves init ms) es) ∧ Synced (moves init ms).disk (moves init ms) ∧ Growing (run (moves init ms) es).log ∧
    (∀ c, Sorted (docs (moves init ms) c)) := by
  obtain ⟨h1, h2, h3, h4⟩ := before_start (clean_moves ms init World.empty clean_init hp hq) ha (Inv.run _ inv_init)
  refine ⟨h1.run h2 h3 es he, h4, ?_, h3⟩
  unfold moves
  rw [← run_append]
  exact growing_run _ _ growing_init

theorem new_records {s0 s : Sys} (h : Before s0 s) : ∀ p ∈ (s.log.drop s0.log.length).map Rec.plan, Simple p ∧ p.writes = true := by
  obtain ⟨A, B, hm, _⟩ := h
  have hlog : s.log.drop s0.log.length = A ++ B.map Prod.snd := by rw [hm.log]; simp
  rw [hlog]
  intro p hp
  obtain ⟨r, hr, e⟩ := List.mem_map.mp hp
  subst e
  rcases List.mem_append.mp hr with hr | hr
  · exact ⟨(hm.seen r hr).1, (hm.seen r hr).2.1⟩
  · obtain ⟨b, hb, e⟩ := List.mem_map.mp hr
    subst e
    exact ⟨(hm.ses _ _ _ (hm.held b hb)).1, hm.logged b hb⟩

/-- C08, a crash at any moment. A node with any history `ms` of requests that wait for each other (as in `C08_clean_partial`) has written everything to the disk; then
any number of clients insert documents and delete, interleaved in any way with the actors and the disk agent (`es`), and the process ends
at any moment and starts again. Whatever the order in which the actors then run (`es'`): when the load is over, every collection contains what the
records of the log — those of the acknowledged requests among them (`C07_logged`) — make of the documents before, whether the disk agent had written all, none or
a part of them. Missing: inserts of several documents (`C08_batch_fails`), updates (`C08_update_fails`), creations and drops under way (`C08_created_fails`, `C08_first_database_fails`),
a second crash during the load (`C08_twice_fails`). -/
theorem C08_crash_partial (ms : List Move) (hp : ∀ p ∈ ms.filterMap Move.plan?, Plain p) (hq : World.empty.placed (ms.filterMap Move.plan?))
    (ha : (moves init ms).agent = []) (es es' : List Event) (he : ∀ e ∈ es, Calm e) (he' : ∀ e ∈ es', Inner e)
    (hl : (run (moves init ms) (es ++ .crash :: es')).loading = 0) :
    contents (run (moves init ms) (es ++ .crash :: es')) =
      (((run (moves init ms) es).log.drop (moves init ms).log.length).map Rec.plan).foldl Store.after (contents (moves init ms)) := by
  obtain ⟨hb, hy, hg, hs⟩ := crash_facts ms hp hq ha es he
  have hr := (restart_replaying hb hy hg).run es' he'
  have e : run (moves init ms) (es ++ .crash :: es') = run (restart (run (moves init ms) es)) es' := by rw [run_append]; rfl
  rw [e] at hl ⊢
  have := hr.over hl
  unfold contents
  rw [this]
  exact look_plays _ _ _ hs (new_records hb) (fun _ _ => rfl)

/-- C08: the same, when every request has been answered before the crash: the clients find what they had. -/
theorem C08_answered_partial (ms : List Move) (hp : ∀ p ∈ ms.filterMap Move.plan?, Plain p) (hq : World.empty.placed (ms.filterMap Move.plan?))
    (ha : (moves init ms).agent = []) (es es' : List Event) (he : ∀ e ∈ es, Calm e) (he' : ∀ e ∈ es', Inner e)
    (hquiet : Quiet (run (moves init ms) es))
    (hl : (run (moves init ms) (es ++ .crash :: es')).loading = 0) :
    contents (run (moves init ms) (es ++ .crash :: es')) = contents (run (moves init ms) es) := by
  rw [C08_crash_partial ms hp hq ha es es' he he' hl]
  obtain ⟨hb, hy, hg, hs⟩ := crash_facts ms hp hq ha es he
  rw [← look_plays _ (docs (moves init ms)) (contents (moves init ms)) hs (new_records hb) (fun _ _ => rfl)]
  obtain ⟨A, B, hm, _⟩ := hb
  obtain ⟨q1, q2, q3, _⟩ := hquiet
  have hB : B = [] := by
    have := hm.oks
    rw [q1] at this
    cases B with
    | nil => rfl
    | cons b B => exact absurd this (by simp)
  subst hB
  have htodo : todo (run (moves init ms) es) [] = [] := by unfold todo; rw [q1, q3]; rfl
  have hlog : (run (moves init ms) es).log.drop (moves init ms).log.length = A := by rw [hm.log]; simp
  rw [hlog]
  funext c i
  unfold contents
  have hmc := hm.mem c
  rw [htodo, List.map_nil, List.append_nil] at hmc
  congr 1
  cases h0 : (moves init ms).mem c with
  | none =>
    rw [h0] at hmc
    have : docs (run (moves init ms) es) c = [] := by unfold docs; rw [hmc]; rfl
    rw [this]
    have hnc : (moves init ms).cat.computes c = false := by
      cases h : (moves init ms).cat.computes c with
      | false => rfl
      | true =>
        have hcc : (moves init ms).cat.colls c = true := by unfold Cat.computes at h; rw [Bool.and_eq_true] at h; exact h.2
        obtain ⟨t, g, _, h2⟩ := hy.trees c hcc
        rw [h0] at h2
        exact absurd h2 (by simp)
    have hkeep : ∀ (L : List Rec) (D : Docs), D c = [] → (∀ r ∈ L, Simple r.plan ∧ r.plan.writes = true ∧ admit (moves init ms).cat r.plan = true) → plays D (L.map Rec.plan) c = [] := by
      intro L
      induction L with
      | nil => intro D h _; exact h
      | cons r L ih =>
        intro D h hL
        refine ih (play D r.plan) ?_ (fun x hx => hL x (List.mem_cons_of_mem _ hx))
        obtain ⟨h1, _, h3⟩ := hL r List.mem_cons_self
        obtain ⟨x, hx⟩ := simple_coll h1
        rw [simple_admit h1 hx] at h3
        have e : c ≠ x := fun e => by rw [← e, hnc] at h3; exact absurd h3 (by simp)
        unfold play
        rw [hx]
        exact (set_other _ _ _ _ e).trans h
    exact hkeep A _ (by unfold docs; rw [h0]) hm.seen
  | some v =>
    rw [h0] at hmc
    have : docs (run (moves init ms) es) c = plays (docs (moves init ms)) (A.map Rec.plan) c := by
      unfold docs at hmc ⊢; rw [hmc]; rfl
    rw [this]

/-- C08: the load always ends: when the executor and the dispatcher have taken their messages as often as there are records to replay, the node is loaded, and the process has not ended. -/
theorem C08_recovers_partial (ms : List Move) (hp : ∀ p ∈ ms.filterMap Move.plan?, Plain p) (hq : World.empty.placed (ms.filterMap Move.plan?))
    (ha : (moves init ms).agent = []) (es es' : List Event) (he : ∀ e ∈ es, Calm e) (he' : ∀ e ∈ es', Inner e) :
    (run (moves init ms) (es ++ .crash :: es')).dead = false ∧
    ∃ n, (run (moves init ms) (es ++ .crash :: es' ++ (List.replicate n [Event.exec, Event.disp]).flatten)).loading = 0 ∧
      (run (moves init ms) (es ++ .crash :: es' ++ (List.replicate n [Event.exec, Event.disp]).flatten)).dead = false := by
  obtain ⟨hb, hy, hg, hs⟩ := crash_facts ms hp hq ha es he
  have hr := (restart_replaying hb hy hg).run es' he'
  have e : run (moves init ms) (es ++ .crash :: es') = run (restart (run (moves init ms) es)) es' := by rw [run_append]; rfl
  rw [e]
  have key : ∀ (n : Nat) (s : Sys) (T : Docs), Replaying s T 0 → s.loading = n → (run s (List.replicate n [Event.exec, Event.disp]).flatten).loading = 0 ∧
      (run s (List.replicate n [Event.exec, Event.disp]).flatten).dead = false := by
    intro n
    induction n with
    | zero => intro s T h hl; exact ⟨hl, h.live⟩
    | succ n ih =>
      intro s T h hl
      rw [List.replicate_succ, List.flatten_cons, run_append]
      refine ih _ T (h.run _ ?_) (h.turn n hl)
      intro x hx
      fin_cases hx <;> trivial
  refine ⟨hr.live, (run (restart (run (moves init ms) es)) es').loading, ?_⟩
  rw [run_append, e]
  exact key _ _ _ hr rfl

/-! ## A case -/

/-- Two documents, on the disk. -/
def laid : List Move := [.ask 0 (.createDb 1), .ask 0 (.createColl ⟨1, 5⟩), .ask 0 (.insert ⟨1, 5⟩ [⟨1, 10⟩, ⟨2, 20⟩])] ++ List.replicate 9 .agent

/-- Three clients at once; the disk agent has removed one of two documents when the process ends. -/
def rush : List Event := [.request 0 (.delete ⟨1, 5⟩ fun _ => true), .request 1 (.insert ⟨1, 5⟩ [⟨3, 30⟩]), .request 2 (.find ⟨1, 5⟩), .disp, .disp, .exec, .disp, .exec, .disp,
  .wal, .disp, .exec, .disp, .agent, .disp, .wal, .disp, .disp]

/-- The order of the actors after the start. -/
def rise : List Event := [.exec, .agent, .disp, .exec, .disp, .agent, .agent]

/-- The hypotheses of the crash theorems are met: the delete is half done on the disk, the insert is not on the disk. -/
example : (∀ p ∈ laid.filterMap Move.plan?, Plain p) ∧ World.empty.placed (laid.filterMap Move.plan?) ∧ (moves init laid).agent = [] ∧ (∀ e ∈ rush, Calm e) ∧ (∀ e ∈ rise, Inner e) ∧
    (run (moves init laid) (rush ++ .crash :: rise)).loading = 0 ∧
    (run (moves init laid) rush).disk.trees ⟨1, 5⟩ = some [⟨2, 20⟩] ∧ (run (moves init laid) rush).log.length = 5 ∧
    docs (run (moves init laid) (rush ++ .crash :: rise)) ⟨1, 5⟩ = [⟨3, 30⟩] := by
  refine ⟨?_, ⟨rfl, by decide +kernel, rfl, trivial⟩, by decide +kernel, ?_, ?_, by decide +kernel, by decide +kernel, by decide +kernel, by decide +kernel⟩
  · intro p hp
    have e : laid.filterMap Move.plan? = [.createDb 1, .createColl ⟨1, 5⟩, .insert ⟨1, 5⟩ [⟨1, 10⟩, ⟨2, 20⟩]] := rfl
    rw [e] at hp
    fin_cases hp <;> simp [Plain]
  · intro e he
    unfold rush at he
    fin_cases he <;> simp [Calm, Simple]
  · intro e he
    unfold rise at he
    fin_cases he <;> simp [Inner]

/-- All its requests are answered. -/
example : Quiet (run (moves init laid) rush) ∧ (run (moves init laid) rush).answers.length = 6 := by
  refine ⟨⟨?_, ?_, ?_, ?_, ?_⟩, ?_⟩ <;> rfl

/-! ## Where the full claim fails -/

/-- C08 in full: after any schedule without crash that leaves every request answered, a crash and a load that ends, the clients find what they had. -/
def C08_claim : Prop := ∀ es es' : List Event, .crash ∉ es → (∀ e ∈ es', Inner e) → Quiet (run init es) → (run init (es ++ .crash :: es')).loading = 0 →
  contents (run init (es ++ .crash :: es')) = contents (run init es)

/-- The disk agent works without end. -/
def idle (n : Nat) : List Event := List.replicate n .agent

/-- A database and a collection, on the disk. -/
def ground : List Event := ask 0 (.createDb 1) ++ ask 0 (.createColl ⟨1, 5⟩) ++ idle 4

/-- An update is answered, and written to the disk as the removal of the document: after a restart it is gone (executor.cpp:332-376). -/
theorem C08_update_fails :
    contents (run init (ground ++ ask 0 (.insert ⟨1, 5⟩ [⟨1, 10⟩]) ++ ask 0 (.update ⟨1, 5⟩ fun _ => some 11) ++ idle 9)) ⟨1, 5⟩ 1 = some 11 ∧
    contents (run init (ground ++ ask 0 (.insert ⟨1, 5⟩ [⟨1, 10⟩]) ++ ask 0 (.update ⟨1, 5⟩ fun _ => some 11) ++ idle 9 ++ [.crash])) ⟨1, 5⟩ 1 = none := by
  decide +kernel

/-- A batch that repeats an `_id`: the memory keeps the last document, the restart the first. -/
theorem C08_repeated_id_fails :
    contents (run init (ground ++ ask 0 (.insert ⟨1, 5⟩ [⟨1, 10⟩, ⟨1, 11⟩]) ++ idle 9)) ⟨1, 5⟩ 1 = some 11 ∧
    contents (run init (ground ++ ask 0 (.insert ⟨1, 5⟩ [⟨1, 10⟩, ⟨1, 11⟩]) ++ idle 9 ++ [.crash])) ⟨1, 5⟩ 1 = some 10 := by
  decide +kernel

/-- A batch of which the disk agent has written the first document when the process ends: the replay refuses the batch, because its first `_id` is stored, and the
second document, whose insert was answered, is gone. -/
theorem C08_batch_fails :
    contents (run init (ground ++ ask 0 (.insert ⟨1, 5⟩ [⟨1, 10⟩, ⟨2, 20⟩]) ++ idle 1)) ⟨1, 5⟩ 2 = some 20 ∧
    (run init (ground ++ ask 0 (.insert ⟨1, 5⟩ [⟨1, 10⟩, ⟨2, 20⟩]) ++ idle 1 ++ .crash :: [.exec, .disp])).loading = 0 ∧
    contents (run init (ground ++ ask 0 (.insert ⟨1, 5⟩ [⟨1, 10⟩, ⟨2, 20⟩]) ++ idle 1 ++ .crash :: [.exec, .disp])) ⟨1, 5⟩ 2 = none := by
  decide +kernel

/-- A collection is created and a document inserted, both answered and both in the log; the process ends before the disk agent has written the collection. The records
are handed to the dispatcher at once, the insert before the creation has ended: it is refused, and the document is gone. -/
theorem C08_created_fails :
    contents (run init (ask 0 (.createDb 1) ++ idle 2 ++ ask 0 (.createColl ⟨1, 5⟩) ++ ask 0 (.insert ⟨1, 5⟩ [⟨1, 10⟩]))) ⟨1, 5⟩ 1 = some 10 ∧
    (run init (ask 0 (.createDb 1) ++ idle 2 ++ ask 0 (.createColl ⟨1, 5⟩) ++ ask 0 (.insert ⟨1, 5⟩ [⟨1, 10⟩]) ++ .crash :: [.disp])).loading = 0 ∧
    contents (run init (ask 0 (.createDb 1) ++ idle 2 ++ ask 0 (.createColl ⟨1, 5⟩) ++ ask 0 (.insert ⟨1, 5⟩ [⟨1, 10⟩]) ++ .crash :: [.disp])) ⟨1, 5⟩ 1 = none := by
  decide +kernel

/-- The process ends before the disk agent has written the first database: the log is not replayed at all (dispatcher.cpp:143-161). -/
theorem C08_first_database_fails :
    contents (run init (ask 0 (.createDb 1) ++ ask 0 (.createColl ⟨1, 5⟩) ++ ask 0 (.insert ⟨1, 5⟩ [⟨1, 10⟩]))) ⟨1, 5⟩ 1 = some 10 ∧
    (run init (ask 0 (.createDb 1) ++ ask 0 (.createColl ⟨1, 5⟩) ++ ask 0 (.insert ⟨1, 5⟩ [⟨1, 10⟩]) ++ [.crash])).loading = 0 ∧
    (run init (ask 0 (.createDb 1) ++ ask 0 (.createColl ⟨1, 5⟩) ++ ask 0 (.insert ⟨1, 5⟩ [⟨1, 10⟩]) ++ [.crash])).cat.dbs 1 = false ∧
    contents (run init (ask 0 (.createDb 1) ++ ask 0 (.createColl ⟨1, 5⟩) ++ ask 0 (.insert ⟨1, 5⟩ [⟨1, 10⟩]) ++ [.crash])) ⟨1, 5⟩ 1 = none := by
  decide +kernel

/-- The process ends again during the load: the first replayed record notes the last record on the disk (dispatcher.cpp:515-545 is called with `last_wal_id_`), so the second
insert, answered before the first crash, is not replayed and is gone. -/
theorem C08_twice_fails :
    contents (run init (ground ++ ask 0 (.insert ⟨1, 5⟩ [⟨1, 10⟩]) ++ ask 0 (.insert ⟨1, 5⟩ [⟨2, 20⟩]))) ⟨1, 5⟩ 2 = some 20 ∧
    (run init (ground ++ ask 0 (.insert ⟨1, 5⟩ [⟨1, 10⟩]) ++ ask 0 (.insert ⟨1, 5⟩ [⟨2, 20⟩]) ++ .crash :: [.exec, .disp, .agent, .agent, .agent] ++ [.crash])).loading = 0 ∧
    contents (run init (ground ++ ask 0 (.insert ⟨1, 5⟩ [⟨1, 10⟩]) ++ ask 0 (.insert ⟨1, 5⟩ [⟨2, 20⟩]) ++ .crash :: [.exec, .disp, .agent, .agent, .agent] ++ [.crash])) ⟨1, 5⟩ 2 = none := by
  decide +kernel

theorem C08_fails : ¬ C08_claim := by
  intro h
  have := h (ground ++ ask 0 (.insert ⟨1, 5⟩ [⟨1, 10⟩]) ++ ask 0 (.update ⟨1, 5⟩ fun _ => some 11) ++ idle 9) [] (by simp [ground, ask, idle]) (by simp)
    ⟨rfl, rfl, rfl, rfl, rfl⟩ rfl
  have h1 := C08_update_fails.1
  rw [← this, C08_update_fails.2] at h1
  exact absurd h1 (by simp)

end Verif.Node
