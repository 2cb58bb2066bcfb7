import Verif.Node.AgentLemmas
/-!
The replay of the log after a start: whatever the order in which the actors run, the documents end at those of the replayed records.
-/
namespace Verif.Node

/-- A command the disk agent can do while the collections of the catalog have their trees. -/
def Cmd.fits (k : Cat) : Cmd → Prop
  | .write c _ => k.computes c = true
  | .remove c _ => k.computes c = true
  | .fixWal _ => True
  | _ => False

/-- A write of the log that is replayed. -/
def Again (k : Cat) (p : Plan) : Prop := Simple p ∧ p.writes = true ∧ admit k p = true

/-- The replay under way: `m` records are still to be handed out, and the documents will be `T` when the executor is done with the others. -/
structure Replaying (s : Sys) (T : Docs) (m : Nat) : Prop where
  live : s.dead = false
  wal : s.wal = []
  count : s.loading = s.exec.length + s.disp.length + m
  exec : ∀ x ∈ s.exec, x.2.1 = 0 ∧ Again s.cat x.2.2 ∧ ∃ n, s.sessions x.1 = some ⟨n, x.2.2, true⟩
  disp : ∀ d ∈ s.disp, ∃ sid n p, d = .finish sid true ∧ Again s.cat p ∧ s.sessions sid = some ⟨n, p, true⟩
  known : ∀ c, s.cat.computes c = true → ∃ l t, s.mem c = some (0, l) ∧ s.disk.trees c = some t
  agent : ∀ c ∈ s.agent, c.fits s.cat
  cmds : ∀ sid, ∀ c ∈ s.cmds sid, c.fits s.cat
  docs : plays (docs s) (s.exec.map fun x => x.2.2) = T

theorem again_coll {k : Cat} {p : Plan} (h : Again k p) : ∃ c, p.coll = some c ∧ k.computes c = true := by
  obtain ⟨c, hc⟩ := simple_coll h.1
  exact ⟨c, hc, by rw [← simple_admit h.1 hc]; exact h.2.2⟩

theorem run_fits {k : Cat} {p : Plan} {c : Coll} (h : Simple p) (hc : p.coll = some c) (hk : k.computes c = true) (l : List Doc) : ∀ x ∈ (runPlan l p).2, x.fits k := by
  cases p <;> first
    | (injection hc with hc; subst hc; intro x hx; first | (rw [List.mem_singleton.mp hx]; exact hk) | exact absurd hx (by simp [runPlan]))
    | exact absurd h (by simp [Simple])

/-- One record is handed out. -/
theorem Replaying.give {s : Sys} {T : Docs} {m : Nat} (h : Replaying s T (m + 1)) (j n : Nat) (p : Plan) (hp : Again s.cat p) (hn : s.sessions (.replay j) = none) :
    Replaying (execPlan s (.replay j) ⟨n, p, true⟩) (play T p) m ∧ (execPlan s (.replay j) ⟨n, p, true⟩).cat = s.cat ∧
      (execPlan s (.replay j) ⟨n, p, true⟩).sessions = set s.sessions (.replay j) (some ⟨n, p, true⟩) := by
  obtain ⟨c, hc, hcc⟩ := again_coll hp
  obtain ⟨l, t, hm, ht⟩ := h.known c hcc
  have e : execPlan s (.replay j) ⟨n, p, true⟩ = { s with sessions := set s.sessions (.replay j) (some ⟨n, p, true⟩), exec := s.exec ++ [(.replay j, 0, p)] } := by
    unfold execPlan makeSession
    simp only [hn]
    rw [if_pos hp.2.2]
    obtain ⟨hsp, _, _⟩ := hp
    cases p <;> first
      | (injection hc with hc; subst hc; show toExec _ _ _ _ = _; unfold toExec; simp only [hm])
      | exact absurd hsp (by simp [Simple])
  rw [e]
  have hoth : ∀ x v, s.sessions x = some v → set s.sessions (.replay j) (some ⟨n, p, true⟩) x = some v := fun x v hx => by
    have : x ≠ .replay j := fun e => by rw [e, hn] at hx; exact absurd hx (by simp)
    rw [set_other _ _ _ _ this]; exact hx
  refine ⟨⟨h.live, h.wal, ?_, ?_, ?_, h.known, h.agent, h.cmds, ?_⟩, rfl, rfl⟩
  · show s.loading = (s.exec ++ [(Sid.replay j, 0, p)]).length + s.disp.length + m
    rw [h.count, List.length_append, List.length_singleton]
    omega
  · intro x hx
    rcases List.mem_append.mp hx with hx | hx
    · obtain ⟨a, b, n', hs⟩ := h.exec x hx
      exact ⟨a, b, n', hoth _ _ hs⟩
    · rw [List.mem_singleton.mp hx]; exact ⟨rfl, hp, n, set_same _ _ _⟩
  · intro d hd
    obtain ⟨sid, n', q, a, b, hs⟩ := h.disp d hd
    exact ⟨sid, n', q, a, b, hoth _ _ hs⟩
  · show plays (Node.docs s) ((s.exec ++ [(Sid.replay j, 0, p)]).map fun x : Sid × Nat × Plan => x.2.2) = _
    rw [List.map_append]
    show plays _ (_ ++ [p]) = _
    rw [plays_snoc, h.docs]

/-- All the records are handed out. -/
theorem Replaying.giveAll (rs : List Rec) : ∀ {s : Sys} {T : Docs} (j : Nat), Replaying s T rs.length → (∀ r ∈ rs, Again s.cat r.plan) →
    (∀ i, j ≤ i → s.sessions (.replay i) = none) → Replaying (replayFrom s j rs) (plays T (rs.map Rec.plan)) 0 := by
  induction rs with
  | nil => intro s T j h _ _; exact h
  | cons r rs ih =>
    intro s T j h hr hf
    obtain ⟨h1, h2, h3⟩ := h.give j r.serial r.plan (hr r List.mem_cons_self) (hf j (Nat.le_refl _))
    unfold replayFrom
    rw [if_neg (by rw [h.live]; simp)]
    refine ih (j + 1) h1 ?_ ?_
    · rw [h2]; exact fun x hx => hr x (List.mem_cons_of_mem _ hx)
    · intro i hi
      rw [h3, set_other _ _ _ _ (by intro e; injection e with e; omega)]
      exact hf i (by omega)

/-- The executor. -/
theorem Replaying.execStep {s : Sys} {T : Docs} {m : Nat} (h : Replaying s T m) : Replaying (execStep s) T m := by
  cases he : s.exec with
  | nil =>
    have : Node.execStep s = s := by unfold Node.execStep; rw [he]
    rw [this]; exact h
  | cons x xs =>
    obtain ⟨sid, g, p⟩ := x
    obtain ⟨hg, hp, n, hs⟩ := h.exec (sid, g, p) (by rw [he]; exact List.mem_cons_self)
    have hg : g = 0 := hg
    subst hg
    obtain ⟨c, hc, hcc⟩ := again_coll hp
    obtain ⟨l, t, hm, ht⟩ := h.known c hcc
    have e : Node.execStep s = ran s xs sid 0 p c l := by
      unfold Node.execStep
      rw [he]
      simp only [hc, hm]
      rw [if_pos trivial]
      rfl
    rw [e]
    have hsub : ∀ x ∈ xs, x ∈ s.exec := fun x hx => by rw [he]; exact List.mem_cons_of_mem _ hx
    have hd : Node.docs s c = l := by unfold Node.docs; rw [hm]
    refine ⟨h.live, h.wal, ?_, fun x hx => h.exec x (hsub x hx), ?_, ?_, h.agent, ?_, ?_⟩
    · show s.loading = xs.length + (s.disp ++ [DMsg.finish sid true]).length + m
      rw [h.count, he, List.length_append, List.length_cons, List.length_singleton]
      omega
    · intro d hd
      rcases List.mem_append.mp hd with hd | hd
      · exact h.disp d hd
      · exact ⟨sid, n, p, List.mem_singleton.mp hd, hp, hs⟩
    · intro y hy
      obtain ⟨l', t', h1, h2⟩ := h.known y hy
      show ∃ l'' t'', set s.mem c _ y = _ ∧ _
      by_cases ey : y = c
      · subst ey; exact ⟨_, t', set_same _ _ _, h2⟩
      · exact ⟨l', t', (set_other _ _ _ _ ey).trans h1, h2⟩
    · intro y z hz
      have hz : z ∈ set s.cmds sid (s.cmds sid ++ (runPlan l p).2) y := hz
      by_cases ey : y = sid
      · subst ey
        rw [set_same] at hz
        rcases List.mem_append.mp hz with hz | hz
        · exact h.cmds y z hz
        · exact run_fits hp.1 hc hcc l z hz
      · rw [set_other _ _ _ _ ey] at hz; exact h.cmds y z hz
    · have hT := h.docs
      rw [he] at hT
      have hdd : Node.docs (ran s xs sid 0 p c l) = play (Node.docs s) p := by
        funext y
        rw [docs_set (s := s) c (0, (runPlan l p).1) rfl y]
        unfold play
        rw [hc]
        show _ = set (Node.docs s) c (runPlan (Node.docs s c) p).1 y
        rw [hd]
        unfold set
        rfl
      show plays (Node.docs (ran s xs sid 0 p c l)) (xs.map fun x => x.2.2) = T
      rw [hdd]
      exact hT

theorem finish_replay (t : Sys) (sid : Sid) (n : Nat) (p : Plan) (hs : t.sessions sid = some ⟨n, p, true⟩) (hp : Again t.cat p) (hl : t.dead = false) :
    finishPlan t sid true = { t with agent := t.agent ++ t.cmds sid ++ [.fixWal t.lastWal], cmds := set t.cmds sid [], loading := t.loading - 1 } := by
  have hup : updateCat t p = t := by
    obtain ⟨h1, h2, h3⟩ := hp
    cases p with
    | insert c ds => show (if t.cat.computes c then _ else _) = _; exact if_pos h3
    | delete c q => rfl
    | find c => rfl
    | _ => exact absurd h1 (by simp [Simple])
  have hw : logged t sid ⟨n, p, true⟩ = { t with agent := t.agent ++ t.cmds sid ++ [.fixWal t.lastWal], cmds := set t.cmds sid [], loading := t.loading - 1 } := by
    unfold logged
    rw [if_pos rfl]
    have : walSuccess t sid t.lastWal = flush t sid t.lastWal := by
      unfold walSuccess
      rw [hs]
      simp only [hup]
      rw [if_neg (by rw [hl]; simp), if_pos trivial]
    rw [this]
    unfold done
    rw [if_pos rfl]
    rfl
  unfold finishPlan
  rw [hs]
  obtain ⟨h1, h2, h3⟩ := hp
  cases p with
  | insert c ds => exact hw
  | delete c q => exact hw
  | find c => exact absurd h2 (by simp [Plan.writes])
  | _ => exact absurd h1 (by simp [Simple])

/-- The dispatcher. -/
theorem Replaying.dispStep {s : Sys} {T : Docs} {m : Nat} (h : Replaying s T m) : Replaying (dispStep s) T m := by
  cases hd : s.disp with
  | nil =>
    have : Node.dispStep s = s := by unfold Node.dispStep; rw [hd]
    rw [this]; exact h
  | cons x xs =>
    obtain ⟨sid, n, p, hx, hp, hs⟩ := h.disp x (by rw [hd]; exact List.mem_cons_self)
    subst hx
    have e : Node.dispStep s = finishPlan { s with disp := xs } sid true := by unfold Node.dispStep; rw [hd]
    rw [e, finish_replay { s with disp := xs } sid n p hs hp h.live]
    refine ⟨h.live, h.wal, ?_, h.exec, fun d hd' => h.disp d (by rw [hd]; exact List.mem_cons_of_mem _ hd'), h.known, ?_, ?_, h.docs⟩
    · show s.loading - 1 = s.exec.length + xs.length + m
      rw [h.count, hd, List.length_cons]
      omega
    · intro z hz
      have hz : z ∈ s.agent ++ s.cmds sid ++ [.fixWal s.lastWal] := hz
      rcases List.mem_append.mp hz with hz | hz
      · rcases List.mem_append.mp hz with hz | hz
        · exact h.agent z hz
        · exact h.cmds sid z hz
      · rw [List.mem_singleton.mp hz]; trivial
    · intro y z hz
      have hz : z ∈ set s.cmds sid [] y := hz
      by_cases ey : y = sid
      · subst ey; rw [set_same] at hz; exact absurd hz (by simp)
      · rw [set_other _ _ _ _ ey] at hz; exact h.cmds y z hz

/-- The disk agent. -/
theorem Replaying.agentStep {s : Sys} {T : Docs} {m : Nat} (h : Replaying s T m) : Replaying (agentStep s) T m := by
  have key : ∀ (a : List Cmd) (k : Disk), (∀ c ∈ a, c.fits s.cat) → (∀ c, s.cat.computes c = true → ∃ t, k.trees c = some t) →
      Replaying { s with disk := k, agent := a } T m := by
    intro a k ha hk
    refine ⟨h.live, h.wal, h.count, h.exec, h.disp, ?_, ha, h.cmds, h.docs⟩
    intro c hc
    obtain ⟨l, _, h1, _⟩ := h.known c hc
    obtain ⟨t, ht⟩ := hk c hc
    exact ⟨l, t, h1, ht⟩
  have htr : ∀ c, s.cat.computes c = true → ∃ t, s.disk.trees c = some t := fun c hc => by
    obtain ⟨_, t, _, ht⟩ := h.known c hc; exact ⟨t, ht⟩
  have hset : ∀ (x : Coll) (l : List Doc) c, s.cat.computes c = true → ∃ t, set s.disk.trees x (some l) c = some t := by
    intro x l c hc
    by_cases e : c = x
    · subst e; exact ⟨l, set_same _ _ _⟩
    · rw [set_other _ _ _ _ e]; exact htr c hc
  cases ha : s.agent with
  | nil => rw [agent_nil ha]; exact h
  | cons c cs =>
    have hcs : ∀ z ∈ cs, z.fits s.cat := fun z hz => h.agent z (by rw [ha]; exact List.mem_cons_of_mem _ hz)
    have hc : c.fits s.cat := h.agent c (by rw [ha]; exact List.mem_cons_self)
    cases c with
    | fixWal id => rw [agent_do ha (k := { s.disk with wal := id }) (new := []) rfl]; exact key _ _ hcs htr
    | write x ds =>
      cases ds with
      | nil => rw [agent_do ha (k := s.disk) (new := []) rfl]; exact key _ _ hcs htr
      | cons d ds =>
        rw [agent_do ha (k := s.disk.save x d) (new := [.write x ds]) rfl]
        refine key _ _ ?_ ?_
        · intro z hz
          rcases List.mem_cons.mp hz with hz | hz
          · rw [hz]; exact hc
          · exact hcs z hz
        · obtain ⟨t, ht⟩ := htr x hc
          unfold Disk.save
          rw [ht]
          exact hset x _
    | remove x is =>
      cases is with
      | nil => rw [agent_do ha (k := s.disk) (new := []) rfl]; exact key _ _ hcs htr
      | cons i is =>
        obtain ⟨t, ht⟩ := htr x hc
        rw [agent_do ha (k := { s.disk with trees := set s.disk.trees x (some (t.filter fun d => d.id != i)) }) (new := [.remove x is]) (by unfold agentDo; simp only [ht])]
        refine key _ _ ?_ (hset x _)
        intro z hz
        rcases List.mem_cons.mp hz with hz | hz
        · rw [hz]; exact hc
        · exact hcs z hz
    | _ => exact absurd hc (by simp [Cmd.fits])

/-- Any actor. -/
theorem Replaying.step {s : Sys} {T : Docs} {m : Nat} (h : Replaying s T m) (e : Event) (he : Inner e) : Replaying (step s e) T m := by
  unfold Node.step
  cases e with
  | request k p => exact absurd he (by simp [Inner])
  | crash => exact absurd he (by simp [Inner])
  | disp => simp only; rw [if_neg (by rw [h.live]; simp)]; exact h.dispStep
  | exec => simp only; rw [if_neg (by rw [h.live]; simp)]; exact h.execStep
  | agent => simp only; rw [if_neg (by rw [h.live]; simp)]; exact h.agentStep
  | wal =>
    simp only; rw [if_neg (by rw [h.live]; simp)]
    have : walStep s = s := by unfold walStep; rw [h.wal]
    rw [this]; exact h

theorem Replaying.run (es : List Event) : ∀ {s : Sys} {T : Docs} {m : Nat}, Replaying s T m → (∀ e ∈ es, Inner e) → Replaying (run s es) T m := by
  induction es with
  | nil => intro s T m h _; exact h
  | cons e es ih => intro s T m h he; exact ih (h.step e (he e List.mem_cons_self)) (fun x hx => he x (List.mem_cons_of_mem _ hx))

/-- When the replay is over, the documents are there. -/
theorem Replaying.over {s : Sys} {T : Docs} (h : Replaying s T 0) (hl : s.loading = 0) : Node.docs s = T := by
  have := h.count
  have he : s.exec = [] := by
    cases hx : s.exec with
    | nil => rfl
    | cons a b => rw [hx, List.length_cons] at this; omega
  have := h.docs
  rw [he] at this
  exact this

/-- The executor and the dispatcher together end the replay. -/
theorem Replaying.turn {s : Sys} {T : Docs} (h : Replaying s T 0) (n : Nat) (hl : s.loading = n + 1) : (Node.run s [.exec, .disp]).loading = n := by
  have h1 := h.step .exec trivial
  have h2 : (Node.step s .exec).disp ≠ [] := by
    intro hd
    have hst : Node.step s .exec = Node.execStep s := by unfold Node.step; simp only; rw [if_neg (by rw [h.live]; simp)]
    rw [hst] at hd
    cases he : s.exec with
    | nil =>
      have : Node.execStep s = s := by unfold Node.execStep; rw [he]
      rw [this] at hd
      have := h.count
      rw [hd, he] at this
      simp only [List.length_nil] at this
      omega
    | cons x xs =>
      obtain ⟨sid, g, p⟩ := x
      obtain ⟨hg, hp, n, hs⟩ := h.exec (sid, g, p) (by rw [he]; exact List.mem_cons_self)
      have hg : g = 0 := hg
      subst hg
      obtain ⟨c, hc, hcc⟩ := again_coll hp
      obtain ⟨l, t, hm, ht⟩ := h.known c hcc
      have e : Node.execStep s = ran s xs sid 0 p c l := by
        unfold Node.execStep
        rw [he]
        simp only [hc, hm]
        rw [if_pos trivial]
        rfl
      rw [e] at hd
      have hd : s.disp ++ [DMsg.finish sid true] = [] := hd
      exact absurd hd (by simp)
  have hl1 : (Node.step s .exec).loading = n + 1 := by
    unfold Node.step Node.execStep
    simp only
    rw [if_neg (by rw [h.live]; simp)]
    split
    · exact hl
    · split
      · exact hl
      · split
        · exact hl
        · split <;> exact hl
  show (Node.step (Node.step s .exec) .disp).loading = n
  generalize Node.step s .exec = t at h1 h2 hl1
  cases hd : t.disp with
  | nil => exact absurd hd h2
  | cons x xs =>
    obtain ⟨sid, n', p, hx, hp, hs⟩ := h1.disp x (by rw [hd]; exact List.mem_cons_self)
    subst hx
    have e : Node.step t .disp = finishPlan { t with disp := xs } sid true := by
      unfold Node.step Node.dispStep; simp only; rw [if_neg (by rw [h1.live]; simp), hd]
    rw [e, finish_replay { t with disp := xs } sid n' p hs hp h1.live]
    show t.loading - 1 = n
    omega

end Verif.Node
