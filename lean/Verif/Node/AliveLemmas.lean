import Verif.Node.AnswerLemmas
/-!
Why the process goes on: without drops that meet other requests, every collection of the catalog is in memory and on the disk, or on its way there.
-/
namespace Verif.Node

/-! ## The queue of the disk agent -/

/-- The collections with a tree. -/
def held (k : Disk) : Coll → Bool := fun x => (k.trees x).isSome

/-- What a command makes of them. -/
def qstep (T : Coll → Bool) : Cmd → Coll → Bool
  | .appendColl x => set T x true
  | .removeColl x => set T x false
  | .write x (_ :: _) => set T x true
  | _ => T

/-- No command removes a document from a collection without a tree. -/
def QOk (T : Coll → Bool) : List Cmd → Prop
  | [] => True
  | c :: cs => (∀ x i is, c = .remove x (i :: is) → T x = true) ∧ QOk (qstep T c) cs

/-- The collections with a tree after all commands. -/
def qafter (T : Coll → Bool) (cs : List Cmd) : Coll → Bool := cs.foldl qstep T

theorem qok_append (a : List Cmd) : ∀ (T : Coll → Bool) (b : List Cmd), QOk T a → QOk (qafter T a) b → QOk T (a ++ b) := by
  induction a with
  | nil => intro T b _ h; exact h
  | cons c a ih => intro T b h h'; exact ⟨h.1, ih _ b h.2 h'⟩

theorem qafter_append (T : Coll → Bool) (a b : List Cmd) : qafter T (a ++ b) = qafter (qafter T a) b := List.foldl_append

theorem set_idem {K V : Type} [DecidableEq K] (m : K → V) (k : K) (v : V) : set (set m k v) k v = set m k v := by
  funext x
  by_cases h : x = k
  · subst h; rw [set_same, set_same]
  · rw [set_other _ _ _ _ h]

theorem set_self {K V : Type} [DecidableEq K] (m : K → V) (k : K) (v : V) (h : m k = v) : set m k v = m := by
  funext x
  by_cases e : x = k
  · subst e; rw [set_same]; exact h.symm
  · rw [set_other _ _ _ _ e]

/-- Commands that drop no collection and remove only from collections with a tree. -/
theorem qok_plain (l : List Cmd) : ∀ (T : Coll → Bool), (∀ x, Cmd.removeColl x ∉ l) → (∀ x ids, Cmd.remove x ids ∈ l → T x = true) →
    QOk T l ∧ (∀ x, T x = true → qafter T l x = true) ∧ ∀ x, Cmd.appendColl x ∈ l → qafter T l x = true := by
  induction l with
  | nil => intro T _ _; exact ⟨trivial, fun _ h => h, fun _ h => absurd h (by simp)⟩
  | cons c l ih =>
    intro T h1 h2
    have up : ∀ x, T x = true → qstep T c x = true := by
      intro x hx
      have hs : ∀ y, set T y true x = true := by
        intro y
        by_cases e : x = y
        · subst e; exact set_same _ _ _
        · rw [set_other _ _ _ _ e]; exact hx
      cases c with
      | appendColl y => exact hs y
      | removeColl y => exact absurd List.mem_cons_self (h1 y)
      | write y ds => cases ds with
        | nil => exact hx
        | cons d ds => exact hs y
      | appendDb d => exact hx
      | remove y is => exact hx
      | fixWal i => exact hx
    obtain ⟨a, b, d⟩ := ih (qstep T c) (fun x hx => h1 x (List.mem_cons_of_mem _ hx)) (fun x is hx => up x (h2 x is (List.mem_cons_of_mem _ hx)))
    refine ⟨⟨?_, a⟩, fun x hx => b x (up x hx), ?_⟩
    · intro x i is e
      exact h2 x (i :: is) (by rw [e]; exact List.mem_cons_self)
    · intro x hx
      rcases List.mem_cons.mp hx with hx | hx
      · exact b x (by rw [← hx]; exact set_same _ _ _)
      · exact d x hx

/-- One command. -/
theorem agent_shape (s : Sys) (h : QOk (held s.disk) s.agent) : ∃ k a, agentStep s = { s with disk := k, agent := a } ∧ QOk (held k) a ∧
    qafter (held k) a = qafter (held s.disk) s.agent := by
  cases hm : s.agent with
  | nil =>
    have e : agentStep s = s := by unfold agentStep; rw [hm]
    exact ⟨s.disk, s.agent, e, h, by rw [hm]⟩
  | cons c cs =>
    rw [hm] at h
    obtain ⟨h1, h2⟩ := h
    unfold agentStep
    rw [hm]
    cases c with
    | appendDb d => exact ⟨_, _, rfl, h2, rfl⟩
    | appendColl x =>
      refine ⟨_, _, rfl, ?_, ?_⟩
      · have : held { s.disk with
            trees := match s.disk.trees x with | some _ => s.disk.trees | none => set s.disk.trees x (some []),
            colls := if s.disk.dbs.contains x.db then set s.disk.colls x true else s.disk.colls } = set (held s.disk) x true := by
          funext y
          unfold held
          cases ht : s.disk.trees x with
          | some v =>
            by_cases e : y = x
            · subst e; rw [set_same]; simp only [ht]; rfl
            · rw [set_other _ _ _ _ e]
          | none =>
            by_cases e : y = x
            · subst e; rw [set_same]; simp only [set_same]; rfl
            · rw [set_other _ _ _ _ e]; simp only [set_other _ _ _ _ e]
        have q : QOk (set (held s.disk) x true) cs := h2
        rw [← this] at q; exact q
      · have : held { s.disk with
            trees := match s.disk.trees x with | some _ => s.disk.trees | none => set s.disk.trees x (some []),
            colls := if s.disk.dbs.contains x.db then set s.disk.colls x true else s.disk.colls } = set (held s.disk) x true := by
          funext y
          unfold held
          cases ht : s.disk.trees x with
          | some v =>
            by_cases e : y = x
            · subst e; rw [set_same]; simp only [ht]; rfl
            · rw [set_other _ _ _ _ e]
          | none =>
            by_cases e : y = x
            · subst e; rw [set_same]; simp only [set_same]; rfl
            · rw [set_other _ _ _ _ e]; simp only [set_other _ _ _ _ e]
        have q : qafter (set (held s.disk) x true) cs = qafter (held s.disk) (.appendColl x :: cs) := rfl
        rw [← this] at q; exact q
    | removeColl x =>
      have : held { s.disk with trees := set s.disk.trees x none, colls := set s.disk.colls x false } = set (held s.disk) x false := by
        funext y
        unfold held
        by_cases e : y = x
        · subst e; rw [set_same]; simp only [set_same]; rfl
        · rw [set_other _ _ _ _ e]; simp only [set_other _ _ _ _ e]
      exact ⟨_, _, rfl, by rw [this]; exact h2, by rw [this]; rfl⟩
    | write x ds => cases ds with
      | nil => exact ⟨_, _, rfl, h2, rfl⟩
      | cons d ds =>
        have hh : held (s.disk.save x d) = set (held s.disk) x true := by
          funext y
          unfold held Disk.save
          cases ht : s.disk.trees x with
          | some v =>
            by_cases e : y = x
            · subst e; rw [set_same]; simp only [set_same]; rfl
            · rw [set_other _ _ _ _ e]; simp only [set_other _ _ _ _ e]
          | none =>
            by_cases e : y = x
            · subst e; rw [set_same]; simp only [set_same]; rfl
            · rw [set_other _ _ _ _ e]; simp only [set_other _ _ _ _ e]
        have hq : qstep (set (held s.disk) x true) (.write x ds) = set (held s.disk) x true := by
          cases ds with
          | nil => rfl
          | cons d' ds => exact set_idem _ _ _
        refine ⟨_, _, rfl, ?_, ?_⟩
        · rw [hh]; exact ⟨fun _ _ _ e => absurd e (by simp), by rw [hq]; exact h2⟩
        · rw [hh]; show qafter (qstep (set (held s.disk) x true) (.write x ds)) cs = _; rw [hq]; rfl
    | remove x is => cases is with
      | nil => exact ⟨_, _, rfl, h2, rfl⟩
      | cons i is =>
        have ht : held s.disk x = true := h1 x i is rfl
        cases hl : s.disk.trees x with
        | none => unfold held at ht; rw [hl] at ht; exact absurd ht (by simp)
        | some l =>
          have hh : held { s.disk with trees := set s.disk.trees x (some (l.filter fun d => d.id != i)) } = held s.disk := by
            funext y
            unfold held
            by_cases e : y = x
            · subst e; simp only [set_same, hl]; rfl
            · simp only [set_other _ _ _ _ e]
          refine ⟨{ s.disk with trees := set s.disk.trees x (some (l.filter fun d => d.id != i)) }, .remove x is :: cs, ?_, ?_, ?_⟩
          · simp only [hl]
          · rw [hh]; exact ⟨fun y _ _ e => by injection e with e _; rw [← e]; exact ht, h2⟩
          · rw [hh]; rfl
    | fixWal id => exact ⟨_, _, rfl, h2, rfl⟩

/-! ## The state between drops -/

/-- The collections of the catalog are in memory and have a tree when the disk has caught up; one collection may be about to go. -/
structure Core (s : Sys) (gone : Option Coll) : Prop where
  cat : ∀ x, s.cat.colls x = true → s.cat.dbs x.db = true
  mem : ∀ x, s.cat.computes x = true → gone ≠ some x → s.mem x ≠ none
  queue : QOk (held s.disk) s.agent
  tree : ∀ x, s.cat.computes x = true → qafter (held s.disk) s.agent x = true

/-- The state while nothing is dropped. -/
structure Good (s : Sys) : Prop where
  core : Core s none
  own : ∀ sid ses, s.sessions sid = some ses → ses.replay = false
  exec : ∀ sid g p, (sid, g, p) ∈ s.exec → ∃ c st n, p.coll = some c ∧ s.mem c = some (g, st) ∧ s.sessions sid = some ⟨n, p, false⟩
  fin : ∀ sid ok, DMsg.finish sid ok ∈ s.disp → ok = true ∧ s.sessions sid ≠ none
  ses : ∀ sid ses c, s.sessions sid = some ses → ses.plan.coll = some c → s.cat.computes c = true
  made : ∀ sid ses c, s.sessions sid = some ses → ses.plan = .createColl c → s.mem c ≠ none
  noted : ∀ sid ses c, s.sessions sid = some ses → ses.plan = .createColl c →
    ((∃ n p, (sid, n, p) ∈ s.wal) ∨ ∃ id, DMsg.walOk sid id ∈ s.disp) → Cmd.appendColl c ∈ s.cmds sid
  cmds : ∀ sid, s.cmds sid ≠ [] → ∃ ses, s.sessions sid = some ses ∧ Durable ses.plan
  rem : ∀ sid x ids, Cmd.remove x ids ∈ s.cmds sid → s.cat.computes x = true
  keep : ∀ sid x, Cmd.removeColl x ∉ s.cmds sid

theorem Good.agent {s : Sys} (h : Good s) : Good (agentStep s) ∧ (agentStep s).dead = s.dead := by
  obtain ⟨k, a, e, h1, h2⟩ := agent_shape s h.core.queue
  rw [e]
  exact ⟨⟨⟨h.core.cat, h.core.mem, h1, fun x hx => by rw [h2]; exact h.core.tree x hx⟩, h.own, h.exec, h.fin, h.ses, h.made, h.noted, h.cmds, h.rem, h.keep⟩, rfl⟩

theorem Good.take {s : Sys} (h : Good s) {m : DMsg} {ms : List DMsg} (hm : s.disp = m :: ms) : Good { s with disp := ms } := by
  have sub : ∀ x ∈ ms, x ∈ s.disp := fun x hx => by rw [hm]; exact List.mem_cons_of_mem _ hx
  refine ⟨⟨h.core.cat, h.core.mem, h.core.queue, h.core.tree⟩, h.own, h.exec, fun sid ok hx => h.fin sid ok (sub _ hx), h.ses, h.made, ?_, h.cmds, h.rem, h.keep⟩
  intro sid ses c h1 h2 h3
  refine h.noted sid ses c h1 h2 ?_
  rcases h3 with h3 | ⟨id, h3⟩
  · exact .inl h3
  · exact .inr ⟨id, sub _ h3⟩

/-- A new collection in memory. -/
theorem Good.create {s : Sys} (h : Good s) {c : Coll} (hc : s.mem c = none) :
    Good { s with mem := set s.mem c (some (s.gen, [])), gen := s.gen + 1 } := by
  have up : ∀ x, s.mem x ≠ none → set s.mem c (some (s.gen, [])) x ≠ none := by
    intro x hx
    by_cases e : x = c
    · subst e; rw [set_same]; simp
    · rw [set_other _ _ _ _ e]; exact hx
  refine ⟨⟨h.core.cat, fun x hx hg => up x (h.core.mem x hx hg), h.core.queue, h.core.tree⟩, h.own, ?_, h.fin, h.ses, fun sid ses x h1 h2 => up x (h.made sid ses x h1 h2),
    h.noted, h.cmds, h.rem, h.keep⟩
  intro sid g p hx
  obtain ⟨x, st, n, h1, h2, h3⟩ := h.exec sid g p hx
  refine ⟨x, st, n, h1, ?_, h3⟩
  have e : x ≠ c := fun e => by rw [e, hc] at h2; exact absurd h2 (by simp)
  exact (set_other _ _ _ _ e).trans h2

/-- A new session. -/
theorem Good.session {s : Sys} (h : Good s) {sid : Sid} {n : Nat} {p : Plan} (hn : s.sessions sid = none) (hf : sid ∉ (view s).flight)
    (h1 : ∀ c, p.coll = some c → s.cat.computes c = true) (h2 : ∀ c, p = .createColl c → s.mem c ≠ none) :
    Good { s with sessions := set s.sessions sid (some ⟨n, p, false⟩) } := by
  have old : ∀ x v, s.sessions x = some v → set s.sessions sid (some ⟨n, p, false⟩) x = some v := by
    intro x v hx
    have e : x ≠ sid := fun e => by rw [e, hn] at hx; exact absurd hx (by simp)
    exact (set_other _ _ _ _ e).trans hx
  have new : ∀ x v, set s.sessions sid (some ⟨n, p, false⟩) x = some v → (x = sid ∧ v = ⟨n, p, false⟩) ∨ (x ≠ sid ∧ s.sessions x = some v) := by
    intro x v hx
    by_cases e : x = sid
    · subst e
      rw [set_same] at hx
      injection hx with hx
      exact .inl ⟨rfl, hx.symm⟩
    · rw [set_other _ _ _ _ e] at hx; exact .inr ⟨e, hx⟩
  refine ⟨⟨h.core.cat, h.core.mem, h.core.queue, h.core.tree⟩, ?_, ?_, ?_, ?_, ?_, ?_, ?_, h.rem, h.keep⟩
  · intro x v hx
    rcases new x v hx with ⟨_, hv⟩ | ⟨_, hv⟩
    · rw [hv]
    · exact h.own x v hv
  · intro x g q hx
    obtain ⟨c, st, m, a, b, d⟩ := h.exec x g q hx
    exact ⟨c, st, m, a, b, old _ _ d⟩
  · intro x ok hx
    obtain ⟨a, b⟩ := h.fin x ok hx
    refine ⟨a, ?_⟩
    obtain ⟨v, hv⟩ := Option.ne_none_iff_exists'.mp b
    show set s.sessions sid (some ⟨n, p, false⟩) x ≠ none
    rw [old x v hv]; simp
  · intro x v c hx hc
    rcases new x v hx with ⟨_, hv⟩ | ⟨_, hv⟩
    · rw [hv] at hc; exact h1 c hc
    · exact h.ses x v c hv hc
  · intro x v c hx hc
    rcases new x v hx with ⟨_, hv⟩ | ⟨_, hv⟩
    · rw [hv] at hc; exact h2 c hc
    · exact h.made x v c hv hc
  · intro x v c hx hc hm
    rcases new x v hx with ⟨e, _⟩ | ⟨_, hv⟩
    · exfalso
      rw [e] at hm
      rcases hm with ⟨m, q, hm⟩ | ⟨id, hm⟩
      · exact hf (wal_mem (v := view s) hm)
      · exact hf (sid_mem (v := view s) hm)
    · exact h.noted x v c hv hc hm
  · intro x hx
    obtain ⟨v, a, b⟩ := h.cmds x hx
    exact ⟨v, old _ _ a, b⟩

theorem Good.post {s : Sys} (h : Good s) {sid : Sid} (hs : s.sessions sid ≠ none) : Good (post s sid true) := by
  refine ⟨⟨h.core.cat, h.core.mem, h.core.queue, h.core.tree⟩, h.own, h.exec, ?_, h.ses, h.made, ?_, h.cmds, h.rem, h.keep⟩
  · intro x ok hx
    rcases List.mem_append.mp hx with hx | hx
    · exact h.fin x ok hx
    · have := List.mem_singleton.mp hx
      injection this with e1 e2
      exact ⟨e2, by rw [e1]; exact hs⟩
  · intro x v c h1 h2 h3
    refine h.noted x v c h1 h2 ?_
    rcases h3 with h3 | ⟨id, h3⟩
    · exact .inl h3
    · rcases List.mem_append.mp h3 with h3 | h3
      · exact .inr ⟨id, h3⟩
      · exact absurd (List.mem_singleton.mp h3) (by simp)

theorem Good.toExec {s : Sys} (h : Good s) {sid : Sid} {g n : Nat} {p : Plan} {c : Coll} {st : List Doc} (hc : p.coll = some c) (hm : s.mem c = some (g, st))
    (hs : s.sessions sid = some ⟨n, p, false⟩) : Good { s with exec := s.exec ++ [(sid, g, p)] } := by
  refine ⟨⟨h.core.cat, h.core.mem, h.core.queue, h.core.tree⟩, h.own, ?_, h.fin, h.ses, h.made, h.noted, h.cmds, h.rem, h.keep⟩
  intro x g' q hx
  rcases List.mem_append.mp hx with hx | hx
  · exact h.exec x g' q hx
  · have := List.mem_singleton.mp hx
    injection this with e1 e2
    injection e2 with e2 e3
    subst e1; subst e2; subst e3
    exact ⟨c, st, n, hc, hm, hs⟩

/-- A finished plan goes to the log, with its command for the disk. -/
theorem Good.toWal {s : Sys} (h : Good s) {sid : Sid} {ses : Ses} (hs : s.sessions sid = some ses) (hd : Durable ses.plan) (l : List Cmd)
    (hl : ∀ c, ses.plan = .createColl c → Cmd.appendColl c ∈ l) (h1 : ∀ x, Cmd.removeColl x ∉ l) (h2 : ∀ x ids, Cmd.remove x ids ∉ l) :
    Good { s with cmds := set s.cmds sid (s.cmds sid ++ l), wal := s.wal ++ [(sid, ses.serial, ses.plan)] } := by
  have mem : ∀ x c, c ∈ set s.cmds sid (s.cmds sid ++ l) x → c ∈ s.cmds x ∨ c ∈ l := by
    intro x c hc
    by_cases e : x = sid
    · subst e; rw [set_same] at hc; exact List.mem_append.mp hc
    · rw [set_other _ _ _ _ e] at hc; exact .inl hc
  have up : ∀ x c, c ∈ s.cmds x → c ∈ set s.cmds sid (s.cmds sid ++ l) x := by
    intro x c hc
    by_cases e : x = sid
    · subst e; rw [set_same]; exact List.mem_append_left _ hc
    · rw [set_other _ _ _ _ e]; exact hc
  refine ⟨⟨h.core.cat, h.core.mem, h.core.queue, h.core.tree⟩, h.own, h.exec, h.fin, h.ses, h.made, ?_, ?_, ?_, ?_⟩
  · intro x v c hx hc hm
    by_cases e : x = sid
    · subst e
      rw [hs] at hx
      injection hx with hx
      subst hx
      show Cmd.appendColl c ∈ set s.cmds x (s.cmds x ++ l) x
      rw [set_same]
      exact List.mem_append_right _ (hl c hc)
    · refine up _ _ (h.noted x v c hx hc ?_)
      rcases hm with ⟨m, q, hm⟩ | hm
      · rcases List.mem_append.mp hm with hm | hm
        · exact .inl ⟨m, q, hm⟩
        · have := List.mem_singleton.mp hm
          injection this with this _
          exact absurd this e
      · exact .inr hm
  · intro x hx
    by_cases e : x = sid
    · subst e; exact ⟨ses, hs, hd⟩
    · exact h.cmds x (fun e' => hx ((set_other _ _ _ _ e).trans e'))
  · intro x c ids hc
    rcases mem x _ hc with hc | hc
    · exact h.rem x c ids hc
    · exact absurd hc (h2 c ids)
  · intro x c hc
    rcases mem x _ hc with hc | hc
    · exact h.keep x c hc
    · exact h1 c hc

/-- The catalog grows and the commands of a session go to the disk. -/
theorem Good.flush {s : Sys} (h : Good s) {sid : Sid} (id : Nat) {k : Cat} (hf : sid ∉ (view s).flight)
    (hk : ∀ x, k.colls x = true → k.dbs x.db = true) (up : ∀ x, s.cat.computes x = true → k.computes x = true)
    (new : ∀ x, k.computes x = true → s.cat.computes x = true ∨ (s.mem x ≠ none ∧ Cmd.appendColl x ∈ s.cmds sid)) :
    Good (flush { s with cat := k } sid id) ∧ (flush { s with cat := k } sid id).cmds sid = [] := by
  obtain ⟨q1, q2, q3⟩ := qok_plain (s.cmds sid) (qafter (held s.disk) s.agent) (h.keep sid) (fun x ids hx => h.core.tree x (h.rem sid x ids hx))
  have sub : ∀ x c, c ∈ set s.cmds sid [] x → c ∈ s.cmds x := by
    intro x c hc
    by_cases e : x = sid
    · subst e; rw [set_same] at hc; exact absurd hc (by simp)
    · rw [set_other _ _ _ _ e] at hc; exact hc
  have hq : qafter (held s.disk) (s.agent ++ s.cmds sid ++ [.fixWal id]) = qafter (qafter (held s.disk) s.agent) (s.cmds sid) := by
    rw [qafter_append, qafter_append]; rfl
  refine ⟨⟨⟨hk, ?_, ?_, ?_⟩, h.own, h.exec, h.fin, fun x v c h1 h2 => up c (h.ses x v c h1 h2), h.made, ?_, ?_, fun x c ids hc => up c (h.rem x c ids (sub x _ hc)),
    fun x c hc => h.keep x c (sub x _ hc)⟩, set_same _ _ _⟩
  · intro x hx hg
    rcases new x hx with a | a
    · exact h.core.mem x a hg
    · exact a.1
  · refine qok_append _ _ _ (qok_append _ _ _ h.core.queue q1) ⟨fun _ _ _ e => absurd e (by simp), trivial⟩
  · intro x hx
    show qafter (held s.disk) (s.agent ++ s.cmds sid ++ [.fixWal id]) x = true
    rw [hq]
    rcases new x hx with a | a
    · exact q2 x (h.core.tree x a)
    · exact q3 x a.2
  · intro x v c h1 h2 h3
    have e : x ≠ sid := by
      intro e
      rw [e] at h3
      rcases h3 with ⟨m, q, h3⟩ | ⟨i, h3⟩
      · exact hf (wal_mem (v := view s) h3)
      · exact hf (sid_mem (v := view s) h3)
    show _ ∈ set s.cmds sid [] x
    rw [set_other _ _ _ _ e]
    exact h.noted x v c h1 h2 h3
  · intro x hx
    by_cases e : x = sid
    · exact absurd (by show set s.cmds sid [] x = []; rw [e, set_same]) hx
    · exact h.cmds x (fun e' => hx ((set_other _ _ _ _ e).trans e'))

theorem Good.unsession {s : Sys} (h : Good s) {sid : Sid} (hf : sid ∉ (view s).flight) (hc : s.cmds sid = []) :
    Good { s with sessions := set s.sessions sid none } := by
  refine ⟨⟨h.core.cat, h.core.mem, h.core.queue, h.core.tree⟩, fun x v hx => h.own x v (set_none hx).2, ?_, ?_, fun x v c hx => h.ses x v c (set_none hx).2,
    fun x v c hx => h.made x v c (set_none hx).2, fun x v c hx => h.noted x v c (set_none hx).2, ?_, h.rem, h.keep⟩
  · intro x g p hx
    have e : x ≠ sid := fun e => hf (e ▸ exec_mem (v := view s) (List.mem_map.mpr ⟨_, hx, rfl⟩))
    obtain ⟨c, st, n, a, b, d⟩ := h.exec x g p hx
    exact ⟨c, st, n, a, b, (set_other _ _ _ _ e).trans d⟩
  · intro x ok hx
    have e : x ≠ sid := fun e => hf (e ▸ sid_mem (v := view s) hx)
    obtain ⟨a, b⟩ := h.fin x ok hx
    refine ⟨a, ?_⟩
    show set s.sessions sid none x ≠ none
    rw [set_other _ _ _ _ e]; exact b
  · intro x hx
    have e : x ≠ sid := fun e => hx (e ▸ hc)
    obtain ⟨v, a, b⟩ := h.cmds x hx
    exact ⟨v, (set_other _ _ _ _ e).trans a, b⟩

theorem Good.reply {s : Sys} (h : Good s) {sid : Sid} (ok : Bool) (hf : sid ∉ (view s).flight) (hc : s.cmds sid = []) :
    Good (reply s sid ok) ∧ (reply s sid ok).dead = s.dead := by
  have u := h.unsession hf hc
  unfold Node.reply
  cases s.open' sid with
  | none => exact ⟨u, rfl⟩
  | some v =>
    exact ⟨⟨⟨u.core.cat, u.core.mem, u.core.queue, u.core.tree⟩, u.own, u.exec, u.fin, u.ses, u.made, u.noted, u.cmds, u.rem, u.keep⟩, rfl⟩

/-! ## The steps -/

theorem computes_ns {c : Cat} (h : ∀ x, c.colls x = true → c.dbs x.db = true) (d : Nat) :
    (∀ x, (c.createNs d).colls x = true → (c.createNs d).dbs x.db = true) ∧ ∀ x, (c.createNs d).computes x = c.computes x := by
  unfold Cat.createNs
  split
  · exact ⟨h, fun _ => rfl⟩
  · have up : ∀ y, c.dbs y = true → set c.dbs d true y = true := by
      intro y hy
      by_cases e : y = d
      · subst e; exact set_same _ _ _
      · rw [set_other _ _ _ _ e]; exact hy
    refine ⟨fun x hx => up _ (h x hx), fun x => ?_⟩
    show (set c.dbs d true x.db && c.colls x) = (c.dbs x.db && c.colls x)
    cases hx : c.colls x with
    | false => simp
    | true => rw [up _ (h x hx), h x hx]

theorem computes_table {c : Cat} (h : ∀ x, c.colls x = true → c.dbs x.db = true) (y : Coll) :
    (∀ x, (c.createTable y).colls x = true → (c.createTable y).dbs x.db = true) ∧ (∀ x, c.computes x = true → (c.createTable y).computes x = true) ∧
    ∀ x, (c.createTable y).computes x = true → c.computes x = true ∨ x = y := by
  unfold Cat.createTable
  split
  · rename_i hc
    have hdb : c.dbs y.db = true := by simp only [Bool.and_eq_true] at hc; exact hc.1
    have cs : ∀ x, set c.colls y true x = true → x = y ∨ c.colls x = true := by
      intro x hx
      by_cases e : x = y
      · exact .inl e
      · rw [set_other _ _ _ _ e] at hx; exact .inr hx
    refine ⟨?_, ?_, ?_⟩
    · intro x hx
      rcases cs x hx with e | e
      · rw [e]; exact hdb
      · exact h x e
    · intro x hx
      unfold Cat.computes at hx ⊢
      simp only [Bool.and_eq_true] at hx ⊢
      refine ⟨hx.1, ?_⟩
      by_cases e : x = y
      · rw [e]; exact set_same _ _ _
      · rw [set_other _ _ _ _ e]; exact hx.2
    · intro x hx
      unfold Cat.computes at hx ⊢
      simp only [Bool.and_eq_true] at hx ⊢
      rcases cs x hx.2 with e | e
      · exact .inr e
      · exact .inl ⟨hx.1, e⟩
  · exact ⟨h, fun _ hx => hx, fun _ hx => .inl hx⟩

/-- The answer of the log. -/
theorem Good.walOk {s : Sys} (h : Good s) {sid : Sid} (id : Nat) {ses : Ses} (hf : sid ∉ (view s).flight) (hs : s.sessions sid = some ses)
    (hp : ses.plan.drops = false) (hn : ∀ c, ses.plan = .createColl c → Cmd.appendColl c ∈ s.cmds sid) (hd : s.dead = false) :
    Good (walSuccess s sid id) ∧ (walSuccess s sid id).dead = false := by
  have hr := h.own sid ses hs
  have go : ∀ k : Cat, (∀ x, k.colls x = true → k.dbs x.db = true) → (∀ x, s.cat.computes x = true → k.computes x = true) →
      (∀ x, k.computes x = true → s.cat.computes x = true ∨ (s.mem x ≠ none ∧ Cmd.appendColl x ∈ s.cmds sid)) →
      updateCat s ses.plan = { s with cat := k } → Good (walSuccess s sid id) ∧ (walSuccess s sid id).dead = false := by
    intro k h1 h2 h3 e
    have ew : walSuccess s sid id = Node.reply (Node.flush { s with cat := k } sid id) sid true := by
      unfold walSuccess
      rw [hs]
      show (if (updateCat s ses.plan).dead then _ else if ses.replay then _ else _) = _
      rw [e, if_neg (show ¬ ({ s with cat := k } : Sys).dead = true by show ¬ s.dead = true; rw [hd]; simp), if_neg (show ¬ ses.replay = true by rw [hr]; simp)]
    rw [ew]
    obtain ⟨a, b⟩ := h.flush id hf h1 h2 h3
    obtain ⟨c, d⟩ := a.reply true (sid := sid) hf b
    exact ⟨c, d.trans hd⟩
  have stay : updateCat s ses.plan = s → Good (walSuccess s sid id) ∧ (walSuccess s sid id).dead = false :=
    fun e => go s.cat h.core.cat (fun _ hx => hx) (fun _ hx => .inl hx) (e.trans rfl)
  cases hpl : ses.plan with
  | createDb d =>
    obtain ⟨a, b⟩ := computes_ns h.core.cat d
    exact go (s.cat.createNs d) a (fun x hx => by rw [b]; exact hx) (fun x hx => by rw [b] at hx; exact .inl hx) (by rw [hpl]; rfl)
  | dropDb d => rw [hpl] at hp; exact absurd hp (by simp [Plan.drops])
  | dropColl d => rw [hpl] at hp; exact absurd hp (by simp [Plan.drops])
  | createColl c =>
    obtain ⟨a, b, d⟩ := computes_table h.core.cat c
    refine go (s.cat.createTable c) a b ?_ (by rw [hpl]; rfl)
    intro x hx
    rcases d x hx with e | e
    · exact .inl e
    · rw [e]; exact .inr ⟨h.made sid ses c hs hpl, hn c hpl⟩
  | insert c ds =>
    refine stay ?_
    rw [hpl]
    show (if s.cat.computes c then s else _) = s
    rw [if_pos (h.ses sid ses c hs (by rw [hpl]; rfl))]
  | delete c f => exact stay (by rw [hpl]; rfl)
  | update c f => exact stay (by rw [hpl]; rfl)
  | find c => exact stay (by rw [hpl]; rfl)

/-- A plan that was carried out. -/
theorem Good.finish {s : Sys} (h : Good s) {sid : Sid} {ses : Ses} (hf : sid ∉ (view s).flight) (hs : s.sessions sid = some ses) (hp : ses.plan.drops = false)
    (hd : s.dead = false) : Good (finishPlan s sid true) ∧ (finishPlan s sid true).dead = false := by
  have hr := h.own sid ses hs
  have lg : ∀ (t : Sys), logged t sid ses = { t with wal := t.wal ++ [(sid, ses.serial, ses.plan)] } := by
    intro t; unfold logged; rw [if_neg (by rw [hr]; simp)]
  have dn : done s sid ses true = Node.reply s sid true := by unfold done; rw [if_neg (by rw [hr]; simp)]
  unfold finishPlan
  rw [hs]
  simp only [if_true]
  have same : ∀ hx : Durable ses.plan, (∀ c, ses.plan ≠ .createColl c) → Good (logged s sid ses) ∧ (logged s sid ses).dead = false := by
    intro hx hc
    rw [lg]
    have := h.toWal hs hx [] (fun c e => absurd e (hc c)) (fun _ => by simp) (fun _ _ => by simp)
    rw [List.append_nil, set_self _ _ _ rfl] at this
    exact ⟨this, hd⟩
  cases hpl : ses.plan with
  | createDb d =>
    simp only
    rw [lg]
    exact ⟨h.toWal hs (by rw [hpl]; trivial) [.appendDb d] (fun c e => by rw [hpl] at e; exact absurd e (by simp)) (fun _ => by simp) (fun _ _ => by simp), hd⟩
  | dropDb d => rw [hpl] at hp; exact absurd hp (by simp [Plan.drops])
  | dropColl d => rw [hpl] at hp; exact absurd hp (by simp [Plan.drops])
  | createColl c =>
    simp only
    rw [lg]
    refine ⟨h.toWal hs (by rw [hpl]; trivial) [.appendColl c] (fun x e => ?_) (fun _ => by simp) (fun _ _ => by simp), hd⟩
    rw [hpl] at e
    injection e with e
    rw [e]; exact List.mem_cons_self
  | insert c ds => exact same (by rw [hpl]; trivial) (fun x e => by rw [hpl] at e; exact absurd e (by simp))
  | delete c f => exact same (by rw [hpl]; trivial) (fun x e => by rw [hpl] at e; exact absurd e (by simp))
  | update c f => exact same (by rw [hpl]; trivial) (fun x e => by rw [hpl] at e; exact absurd e (by simp))
  | find c =>
    simp only
    rw [dn]
    have hc : s.cmds sid = [] := by
      cases hx : s.cmds sid with
      | nil => rfl
      | cons a l =>
        obtain ⟨v, e1, e2⟩ := h.cmds sid (by rw [hx]; simp)
        rw [hs] at e1
        injection e1 with e1
        rw [← e1, hpl] at e2
        exact e2.elim
    obtain ⟨a, b⟩ := h.reply true hf hc
    exact ⟨a, b.trans hd⟩

/-- A new plan. -/
theorem Good.plan {s : Sys} (h : Good s) {sid : Sid} {n : Nat} {p : Plan} (hf : sid ∉ (view s).flight) (hn : s.sessions sid = none) (hp : p.drops = false)
    (hd : s.dead = false) : Good (execPlan s sid ⟨n, p, false⟩) ∧ (execPlan s sid ⟨n, p, false⟩).dead = false := by
  have e : makeSession s sid ⟨n, p, false⟩ = { s with sessions := set s.sessions sid (some ⟨n, p, false⟩) } := by unfold makeSession; rw [hn]
  have hc : s.cmds sid = [] := by
    cases hx : s.cmds sid with
    | nil => rfl
    | cons a l =>
      obtain ⟨v, e1, _⟩ := h.cmds sid (by rw [hx]; simp)
      rw [hn] at e1
      exact absurd e1 (by simp)
  unfold execPlan
  show Good (if admit (makeSession s sid ⟨n, p, false⟩).cat p then memory (makeSession s sid ⟨n, p, false⟩) sid p else finishPlan (makeSession s sid ⟨n, p, false⟩) sid false) ∧
    (if admit (makeSession s sid ⟨n, p, false⟩).cat p then memory (makeSession s sid ⟨n, p, false⟩) sid p else finishPlan (makeSession s sid ⟨n, p, false⟩) sid false).dead = false
  rw [e]
  by_cases ha : admit s.cat p = true
  · rw [if_pos (show admit ({ s with sessions := set s.sessions sid (some ⟨n, p, false⟩) } : Sys).cat p = true from ha)]
    have ss : ∀ t : Sys, t.sessions = set s.sessions sid (some ⟨n, p, false⟩) → t.sessions sid = some ⟨n, p, false⟩ := fun t ht => by rw [ht]; exact set_same _ _ _
    have ex : ∀ c, p.coll = some c → (∀ x, p ≠ .createColl x) → s.cat.computes c = true →
        Good (Node.toExec { s with sessions := set s.sessions sid (some ⟨n, p, false⟩) } sid p c) ∧
        (Node.toExec { s with sessions := set s.sessions sid (some ⟨n, p, false⟩) } sid p c).dead = false := by
      intro c hc hne hcc
      have g1 := h.session (n := n) (p := p) hn hf (fun x hx => by rw [hc] at hx; injection hx with hx; rw [← hx]; exact hcc) (fun x hx => absurd hx (hne x))
      obtain ⟨⟨g, st⟩, hm⟩ := Option.ne_none_iff_exists'.mp (h.core.mem c hcc (by simp))
      have et : Node.toExec { s with sessions := set s.sessions sid (some ⟨n, p, false⟩) } sid p c =
          { s with sessions := set s.sessions sid (some ⟨n, p, false⟩), exec := s.exec ++ [(sid, g, p)] } := by
        unfold Node.toExec; simp only [hm]
      rw [et]
      exact ⟨g1.toExec (s := { s with sessions := set s.sessions sid (some ⟨n, p, false⟩) }) hc hm (set_same _ _ _), hd⟩
    cases p with
    | createDb d =>
      have g1 := h.session (n := n) (p := .createDb d) hn hf (fun x hx => absurd hx (by simp [Plan.coll])) (fun x hx => absurd hx (by simp))
      exact ⟨g1.post (by rw [ss _ rfl]; simp), hd⟩
    | dropDb d => exact absurd hp (by simp [Plan.drops])
    | dropColl d => exact absurd hp (by simp [Plan.drops])
    | createColl c =>
      unfold memory
      simp only
      cases hm : s.mem c with
      | some v =>
        have g1 := h.session (n := n) (p := .createColl c) hn hf (fun x hx => absurd hx (by simp [Plan.coll]))
          (fun x hx => by injection hx with hx; rw [← hx, hm]; simp)
        exact ⟨g1.post (by rw [ss _ rfl]; simp), hd⟩
      | none =>
        have g0 := h.create hm
        have g1 := g0.session (n := n) (p := .createColl c) hn hf (fun x hx => absurd hx (by simp [Plan.coll]))
          (fun x hx => by injection hx with hx; show set s.mem c _ x ≠ none; rw [← hx, set_same]; simp)
        exact ⟨g1.post (by rw [ss _ rfl]; simp), hd⟩
    | insert c ds => exact ex c rfl (fun _ => by simp) ha
    | delete c f => exact ex c rfl (fun _ => by simp) ha
    | update c f => exact ex c rfl (fun _ => by simp) ha
    | find c => exact ex c rfl (fun _ => by simp) ha
  · rw [if_neg (show ¬ admit ({ s with sessions := set s.sessions sid (some ⟨n, p, false⟩) } : Sys).cat p = true from ha)]
    have ef : finishPlan { s with sessions := set s.sessions sid (some ⟨n, p, false⟩) } sid false =
        Node.reply { s with sessions := set s.sessions sid (some ⟨n, p, false⟩) } sid false := by
      unfold finishPlan
      simp only [set_same]
      unfold done
      simp only [Bool.false_eq_true, if_false]
    have er : ∀ t, Node.reply { s with sessions := set s.sessions sid (some ⟨n, p, false⟩) } sid false = t → Good t ∧ t.dead = false := by
      intro t ht
      have hset : set (set s.sessions sid (some ⟨n, p, false⟩)) sid none = s.sessions := by
        funext x
        by_cases e : x = sid
        · subst e; rw [set_same]; exact hn.symm
        · rw [set_other _ _ _ _ e, set_other _ _ _ _ e]
      unfold Node.reply at ht
      simp only [hset] at ht
      cases ho : s.open' sid with
      | none =>
        rw [ho] at ht
        rw [← ht]; exact ⟨h, hd⟩
      | some v =>
        rw [ho] at ht
        rw [← ht]
        exact ⟨⟨⟨h.core.cat, h.core.mem, h.core.queue, h.core.tree⟩, h.own, h.exec, h.fin, h.ses, h.made, h.noted, h.cmds, h.rem, h.keep⟩, hd⟩
    rw [ef]
    exact er _ rfl

theorem Good.disp {s : Sys} (h : Good s) (hi : Inv (view s)) (hd : s.dead = false) (ho : ∀ x n q, s.open' x = some (n, q) → q.drops = false) :
    Good (dispStep s) ∧ (dispStep s).dead = false := by
  unfold dispStep
  cases hm : s.disp with
  | nil => exact ⟨h, hd⟩
  | cons m ms =>
    obtain ⟨_, hf⟩ := hi.take hm
    have g := h.take hm
    have hmem : m ∈ s.disp := by rw [hm]; exact List.mem_cons_self
    have dr : ∀ sid ses, s.sessions sid = some ses → ses.plan.drops = false := by
      intro sid ses hs
      exact ho sid _ _ (hi.client sid ses hs (h.own sid ses hs)).2
    cases m with
    | plan sid n p =>
      obtain ⟨_, a, b⟩ := hi.fresh sid n p hmem
      exact g.plan hf b (ho sid n p a) hd
    | finish sid ok =>
      obtain ⟨a, b⟩ := h.fin sid ok hmem
      subst a
      obtain ⟨ses, hs⟩ := Option.ne_none_iff_exists'.mp b
      exact g.finish hf hs (dr sid ses hs) hd
    | walOk sid id =>
      obtain ⟨ses, hs, _, _⟩ := hi.logged sid id hmem
      exact g.walOk id hf hs (dr sid ses hs) (fun c hc => h.noted sid ses c hs hc (.inr ⟨id, hmem⟩)) hd

theorem Good.execStep {s : Sys} (h : Good s) (hd : s.dead = false) : Good (execStep s) ∧ (execStep s).dead = false := by
  unfold Node.execStep
  cases hm : s.exec with
  | nil => exact ⟨h, hd⟩
  | cons m ms =>
    obtain ⟨sid, g, p⟩ := m
    obtain ⟨c, st, n, hc, hmc, hs⟩ := h.exec sid g p (by rw [hm]; exact List.mem_cons_self)
    simp only [hc, hmc, if_true]
    refine ⟨?_, hd⟩
    have hcc : s.cat.computes c = true := h.ses sid ⟨n, p, false⟩ c hs hc
    have rp : (runPlan st p).2 = [] ∨ (Durable p ∧ ∃ x, (runPlan st p).2 = [x] ∧ ((∃ ds, x = .write c ds) ∨ ∃ is, x = .remove c is)) := by
      cases p with
      | insert c' ds =>
        have : c' = c := by injection hc
        subst this
        exact .inr ⟨trivial, _, rfl, .inl ⟨_, rfl⟩⟩
      | delete c' ds =>
        have : c' = c := by injection hc
        subst this
        exact .inr ⟨trivial, _, rfl, .inr ⟨_, rfl⟩⟩
      | update c' ds =>
        have : c' = c := by injection hc
        subst this
        exact .inr ⟨trivial, _, rfl, .inr ⟨_, rfl⟩⟩
      | _ => exact .inl rfl
    have mem : ∀ x cm, cm ∈ set s.cmds sid (s.cmds sid ++ (runPlan st p).2) x → cm ∈ s.cmds x ∨ cm ∈ (runPlan st p).2 := by
      intro x cm hx
      by_cases e : x = sid
      · subst e; rw [set_same] at hx; exact List.mem_append.mp hx
      · rw [set_other _ _ _ _ e] at hx; exact .inl hx
    have up : ∀ x cm, cm ∈ s.cmds x → cm ∈ set s.cmds sid (s.cmds sid ++ (runPlan st p).2) x := by
      intro x cm hx
      by_cases e : x = sid
      · subst e; rw [set_same]; exact List.mem_append_left _ hx
      · rw [set_other _ _ _ _ e]; exact hx
    have upm : ∀ x, s.mem x ≠ none → set s.mem c (some (g, (runPlan st p).1)) x ≠ none := by
      intro x hx
      by_cases e : x = c
      · subst e; rw [set_same]; simp
      · rw [set_other _ _ _ _ e]; exact hx
    refine Good.post (s := { s with exec := ms, mem := set s.mem c (some (g, (runPlan st p).1)), cmds := set s.cmds sid (s.cmds sid ++ (runPlan st p).2) }) ?_
      (by show s.sessions sid ≠ none; rw [hs]; simp)
    refine ⟨⟨h.core.cat, fun x hx hg => upm x (h.core.mem x hx hg), h.core.queue, h.core.tree⟩, h.own, ?_, h.fin, h.ses, fun x v y h1 h2 => upm y (h.made x v y h1 h2),
      fun x v y h1 h2 h3 => up _ _ (h.noted x v y h1 h2 h3), ?_, ?_, ?_⟩
    · intro x g' q hx
      obtain ⟨y, st', m, a, b, d⟩ := h.exec x g' q (by rw [hm]; exact List.mem_cons_of_mem _ hx)
      by_cases e : y = c
      · subst e
        rw [hmc] at b
        injection b with b
        injection b with b1 b2
        exact ⟨y, _, m, a, (set_same _ _ _).trans (by rw [b1]), d⟩
      · exact ⟨y, st', m, a, (set_other _ _ _ _ e).trans b, d⟩
    · intro x hx
      by_cases e : x = sid
      · subst e
        rcases rp with rp | ⟨rp, _⟩
        · refine h.cmds x (fun e' => hx ?_)
          show set s.cmds x (s.cmds x ++ (runPlan st p).2) x = []
          rw [set_same, rp, e']; rfl
        · exact ⟨_, hs, rp⟩
      · exact h.cmds x (fun e' => hx ((set_other _ _ _ _ e).trans e'))
    · intro x y ids hx
      rcases mem x _ hx with hx | hx
      · exact h.rem x y ids hx
      · rcases rp with rp | ⟨_, z, e1, e2⟩
        · rw [rp] at hx; exact absurd hx (by simp)
        · rw [e1] at hx
          have hx := List.mem_singleton.mp hx
          rcases e2 with ⟨ds, e2⟩ | ⟨is, e2⟩
          · rw [e2] at hx; exact absurd hx (by simp)
          · rw [e2] at hx; injection hx with hx _; rw [hx]; exact hcc
    · intro x y hx
      rcases mem x _ hx with hx | hx
      · exact h.keep x y hx
      · rcases rp with rp | ⟨_, z, e1, e2⟩
        · rw [rp] at hx; exact absurd hx (by simp)
        · rw [e1] at hx
          have hx := List.mem_singleton.mp hx
          rcases e2 with ⟨ds, e2⟩ | ⟨is, e2⟩
          · rw [e2] at hx; exact absurd hx (by simp)
          · rw [e2] at hx; exact absurd hx (by simp)

theorem Good.walStep {s : Sys} (h : Good s) : Good (walStep s) ∧ (walStep s).dead = s.dead := by
  unfold Node.walStep
  cases hm : s.wal with
  | nil => exact ⟨h, rfl⟩
  | cons m ms =>
    obtain ⟨sid, n, p⟩ := m
    refine ⟨⟨⟨h.core.cat, h.core.mem, h.core.queue, h.core.tree⟩, h.own, h.exec, ?_, h.ses, h.made, ?_, h.cmds, h.rem, h.keep⟩, rfl⟩
    · intro x ok hx
      rcases List.mem_append.mp hx with hx | hx
      · exact h.fin x ok hx
      · exact absurd (List.mem_singleton.mp hx) (by simp)
    · intro x v c h1 h2 h3
      refine h.noted x v c h1 h2 ?_
      rcases h3 with ⟨m, q, h3⟩ | ⟨id, h3⟩
      · exact .inl ⟨m, q, by rw [hm]; exact List.mem_cons_of_mem _ h3⟩
      · rcases List.mem_append.mp h3 with h3 | h3
        · exact .inr ⟨id, h3⟩
        · have := List.mem_singleton.mp h3
          injection this with this _
          exact .inl ⟨n, p, by rw [this, hm]; exact List.mem_cons_self⟩

/-- A state in which nothing is under way. -/
theorem good_rest {s : Sys} (h : Core s none) (h1 : s.disp = []) (h2 : s.exec = []) (h3 : ∀ x, s.sessions x = none) (h4 : ∀ x, s.cmds x = []) : Good s := by
  refine ⟨h, ?_, ?_, ?_, ?_, ?_, ?_, ?_, ?_, ?_⟩
  · intro x v hx; rw [h3] at hx; exact absurd hx (by simp)
  · intro x g p hx; rw [h2] at hx; exact absurd hx (by simp)
  · intro x ok hx; rw [h1] at hx; exact absurd hx (by simp)
  · intro x v c hx; rw [h3] at hx; exact absurd hx (by simp)
  · intro x v c hx; rw [h3] at hx; exact absurd hx (by simp)
  · intro x v c hx; rw [h3] at hx; exact absurd hx (by simp)
  · intro x hx; exact absurd (h4 x) hx
  · intro x c ids hx; rw [h4] at hx; exact absurd hx (by simp)
  · intro x c hx; rw [h4] at hx; exact absurd hx (by simp)

/-- If nobody waits, nothing is under way. -/
theorem rest_of_good {s : Sys} (h : Good s) (hi : Inv (view s)) (ho : ∀ x, s.open' x = none) :
    s.disp = [] ∧ s.exec = [] ∧ s.wal = [] ∧ (∀ x, s.sessions x = none) ∧ ∀ x, s.cmds x = [] := by
  have hs : ∀ x, s.sessions x = none := by
    intro x
    cases hx : s.sessions x with
    | none => rfl
    | some v =>
      have := (hi.client x v hx (h.own x v hx)).2
      rw [show (view s).open' x = none from ho x] at this
      exact absurd this (by simp)
  refine ⟨?_, ?_, ?_, hs, ?_⟩
  · cases hm : s.disp with
    | nil => rfl
    | cons m ms =>
      exfalso
      have hmem : m ∈ s.disp := by rw [hm]; exact List.mem_cons_self
      cases m with
      | plan sid n p =>
        have := (hi.fresh sid n p hmem).2.1
        rw [show (view s).open' sid = none from ho sid] at this
        exact absurd this (by simp)
      | finish sid ok => exact (h.fin sid ok hmem).2 (hs sid)
      | walOk sid id =>
        obtain ⟨v, a, _⟩ := hi.logged sid id hmem
        rw [show (view s).sessions sid = none from hs sid] at a
        exact absurd a (by simp)
  · cases hm : s.exec with
    | nil => rfl
    | cons m ms =>
      obtain ⟨sid, g, p⟩ := m
      obtain ⟨_, _, _, _, _, a⟩ := h.exec sid g p (by rw [hm]; exact List.mem_cons_self)
      rw [hs] at a
      exact absurd a (by simp)
  · cases hm : s.wal with
    | nil => rfl
    | cons m ms =>
      obtain ⟨sid, n, p⟩ := m
      have := hi.toLog sid n p (by show _ ∈ s.wal; rw [hm]; exact List.mem_cons_self)
      rw [show (view s).sessions sid = none from hs sid] at this
      exact absurd this (by simp)
  · intro x
    cases hx : s.cmds x with
    | nil => rfl
    | cons a l =>
      obtain ⟨v, e, _⟩ := h.cmds x (by rw [hx]; simp)
      rw [hs] at e
      exact absurd e (by simp)

/-! ## Drops -/

/-- A drop on its way, and nothing else. -/
structure Alone (s : Sys) (sid : Sid) (n : Nat) (p : Plan) : Prop where
  drops : p.drops = true
  client : ∃ k, sid = .client k
  exec : s.exec = []
  waits : s.open' sid = some (n, p)
  others : ∀ x, x ≠ sid → s.open' x = none

inductive Dropping (s : Sys) (sid : Sid) (n : Nat) (p : Plan) : Prop
  | asked (h : Core s none) (a : s.disp = [.plan sid n p]) (b : s.wal = []) (c : ∀ x, s.sessions x = none) (d : ∀ x, s.cmds x = [])
  | db (i : Nat) (e : p = .dropDb i) (h : Core s none) (a : s.disp = [.finish sid true]) (b : s.wal = []) (c : s.sessions = set (fun _ => none) sid (some ⟨n, p, false⟩))
      (d : ∀ x, s.cmds x = [])
  | coll (i : Coll) (e : p = .dropColl i) (h : Core s (some i)) (a : s.disp = [.finish sid true]) (b : s.wal = [])
      (c : s.sessions = set (fun _ => none) sid (some ⟨n, p, false⟩)) (d : ∀ x, s.cmds x = [])
  | toWal (i : Coll) (e : p = .dropColl i) (h : Core s (some i)) (a : s.disp = []) (b : s.wal = [(sid, n, p)])
      (c : s.sessions = set (fun _ => none) sid (some ⟨n, p, false⟩)) (d : s.cmds = set (fun _ => []) sid [.removeColl i])
  | logged (i : Coll) (id : Nat) (e : p = .dropColl i) (h : Core s (some i)) (a : s.disp = [.walOk sid id]) (b : s.wal = [])
      (c : s.sessions = set (fun _ => none) sid (some ⟨n, p, false⟩)) (d : s.cmds = set (fun _ => []) sid [.removeColl i])

/-- The two kinds of states. -/
def Phase (s : Sys) : Prop :=
  s.dead = false ∧ ((Good s ∧ ∀ x n q, s.open' x = some (n, q) → q.drops = false) ∨ ∃ sid n p, Alone s sid n p ∧ Dropping s sid n p)

theorem Core.agent {s : Sys} {g : Option Coll} (h : Core s g) : ∃ k a, agentStep s = { s with disk := k, agent := a } ∧ Core { s with disk := k, agent := a } g := by
  obtain ⟨k, a, e, h1, h2⟩ := agent_shape s h.queue
  exact ⟨k, a, e, h.cat, h.mem, h1, fun x hx => by rw [h2]; exact h.tree x hx⟩

theorem Phase.agent {s : Sys} (h : Phase s) : Phase (agentStep s) := by
  obtain ⟨hd, ⟨h, ho⟩ | ⟨sid, n, p, h, h'⟩⟩ := h
  · obtain ⟨a, b⟩ := h.agent
    refine ⟨b.trans hd, .inl ⟨a, ?_⟩⟩
    have := congrArg View.open' (view_agent s).1
    intro x n q hx
    exact ho x n q (by rw [← show (agentStep s).open' = s.open' from this]; exact hx)
  · have fin : ∀ g, Core s g → (∀ k a, Core { s with disk := k, agent := a } g → Dropping { s with disk := k, agent := a } sid n p) → Phase (agentStep s) := by
      intro g hg hk
      obtain ⟨k, a, e, hc⟩ := hg.agent
      rw [e]
      exact ⟨hd, .inr ⟨sid, n, p, ⟨h.drops, h.client, h.exec, h.waits, h.others⟩, hk k a hc⟩⟩
    cases h' with
    | asked hc a b c d => exact fin _ hc (fun _ _ hc => .asked hc a b c d)
    | db i e hc a b c d => exact fin _ hc (fun _ _ hc => .db i e hc a b c d)
    | coll i e hc a b c d => exact fin _ hc (fun _ _ hc => .coll i e hc a b c d)
    | toWal i e hc a b c d => exact fin _ hc (fun _ _ hc => .toWal i e hc a b c d)
    | logged i id e hc a b c d => exact fin _ hc (fun _ _ hc => .logged i id e hc a b c d)

theorem Phase.walStep {s : Sys} (h : Phase s) : Phase (walStep s) := by
  obtain ⟨hd, ⟨h, ho⟩ | ⟨sid, n, p, h, h'⟩⟩ := h
  · obtain ⟨a, b⟩ := h.walStep
    refine ⟨b.trans hd, .inl ⟨a, ?_⟩⟩
    have : (Node.walStep s).open' = s.open' := by unfold Node.walStep; split <;> rfl
    rw [this]; exact ho
  · have skip : s.wal = [] → Dropping s sid n p → Phase (Node.walStep s) := by
      intro e h'
      have : Node.walStep s = s := by unfold Node.walStep; rw [e]
      rw [this]; exact ⟨hd, .inr ⟨sid, n, p, h, h'⟩⟩
    cases h' with
    | asked hc a b c d => exact skip b (.asked hc a b c d)
    | db i e hc a b c d => exact skip b (.db i e hc a b c d)
    | coll i e hc a b c d => exact skip b (.coll i e hc a b c d)
    | logged i id e hc a b c d => exact skip b (.logged i id e hc a b c d)
    | toWal i e hc a b c d =>
      unfold Node.walStep
      rw [b]
      refine ⟨hd, .inr ⟨sid, n, p, ⟨h.drops, h.client, h.exec, h.waits, h.others⟩, ?_⟩⟩
      exact .logged i (lastId s.log + 1) e ⟨hc.cat, hc.mem, hc.queue, hc.tree⟩ (by show s.disp ++ _ = _; rw [a]; rfl) rfl c d

theorem Phase.execStep {s : Sys} (h : Phase s) : Phase (execStep s) := by
  obtain ⟨hd, ⟨h, ho⟩ | ⟨sid, n, p, h, h'⟩⟩ := h
  · obtain ⟨a, b⟩ := h.execStep hd
    refine ⟨b, .inl ⟨a, ?_⟩⟩
    have : (Node.execStep s).open' = s.open' := by
      unfold Node.execStep
      split
      · rfl
      · split
        · rfl
        · split
          · rfl
          · split <;> rfl
    rw [this]; exact ho
  · have : Node.execStep s = s := by unfold Node.execStep; rw [h.exec]
    rw [this]; exact ⟨hd, .inr ⟨sid, n, p, h, h'⟩⟩

theorem reply_open {s : Sys} {sid : Sid} {n : Nat} {p : Plan} (ok : Bool) (h : s.open' sid = some (n, p)) :
    reply s sid ok = { s with open' := set s.open' sid none, answers := (n, p, ok) :: s.answers, sessions := set s.sessions sid none } := by
  unfold reply; rw [h]

/-- The end of a drop. -/
theorem drop_end {s : Sys} {sid : Sid} {n : Nat} {p : Plan} (ok : Bool) (hc : Core s none) (hd : s.dead = false) (h1 : s.disp = []) (h2 : s.exec = [])
    (h3 : ∀ x, x ≠ sid → s.sessions x = none) (h4 : ∀ x, s.cmds x = []) (h5 : s.open' sid = some (n, p)) (h6 : ∀ x, x ≠ sid → s.open' x = none) :
    Phase (reply s sid ok) := by
  rw [reply_open ok h5]
  refine ⟨hd, .inl ⟨good_rest ⟨hc.cat, hc.mem, hc.queue, hc.tree⟩ h1 h2 ?_ h4, ?_⟩⟩
  · intro x
    show set s.sessions sid none x = none
    by_cases e : x = sid
    · rw [e]; exact set_same _ _ _
    · rw [set_other _ _ _ _ e]; exact h3 x e
  · intro x m q hx
    have hx : set s.open' sid none x = some (m, q) := hx
    obtain ⟨e, hx⟩ := set_none hx
    rw [h6 x e] at hx
    exact absurd hx (by simp)

theorem Phase.dispStep {s : Sys} (h : Phase s) (hi : Inv (view s)) (hsv : ∀ x v, (dispStep s).open' x = some v → s.open' x = some v) : Phase (dispStep s) := by
  obtain ⟨hd, ⟨h, ho⟩ | ⟨sid, n, p, h, h'⟩⟩ := h
  · obtain ⟨a, b⟩ := h.disp hi hd ho
    exact ⟨b, .inl ⟨a, fun x m q hx => ho x m q (hsv x _ hx)⟩⟩
  · have only : ∀ (v : Ses) x, x ≠ sid → set (fun _ : Sid => (none : Option Ses)) sid (some v) x = none := fun v x e => set_other _ _ _ _ e
    cases h' with
    | toWal i e hc a b c d =>
      have : Node.dispStep s = s := by unfold Node.dispStep; rw [a]
      rw [this]; exact ⟨hd, .inr ⟨sid, n, p, h, .toWal i e hc a b c d⟩⟩
    | asked hc a b c d =>
      unfold Node.dispStep
      rw [a]
      have e : makeSession { s with disp := [] } sid ⟨n, p, false⟩ = { s with disp := [], sessions := set s.sessions sid (some ⟨n, p, false⟩) } := by
        unfold makeSession; simp only [c]
      have es : set s.sessions sid (some ⟨n, p, false⟩) = set (fun _ => none) sid (some ⟨n, p, false⟩) := by
        have : s.sessions = fun _ => none := funext c
        rw [this]
      show Phase (execPlan { s with disp := [] } sid ⟨n, p, false⟩)
      unfold execPlan
      show Phase (if admit (makeSession { s with disp := [] } sid ⟨n, p, false⟩).cat p then memory (makeSession { s with disp := [] } sid ⟨n, p, false⟩) sid p
        else finishPlan (makeSession { s with disp := [] } sid ⟨n, p, false⟩) sid false)
      rw [e]
      by_cases ha : admit s.cat p = true
      · rw [if_pos (show admit ({ s with disp := [], sessions := set s.sessions sid (some ⟨n, p, false⟩) } : Sys).cat p = true from ha)]
        cases hp : p with
        | dropDb i =>
          subst hp
          refine ⟨hd, .inr ⟨sid, n, .dropDb i, ⟨rfl, h.client, h.exec, h.waits, h.others⟩, ?_⟩⟩
          refine .db i rfl ⟨hc.cat, hc.mem, hc.queue, hc.tree⟩ rfl b ?_ d
          exact es
        | dropColl i =>
          subst hp
          have hcc : s.cat.computes i = true := ha
          obtain ⟨v, hm⟩ := Option.ne_none_iff_exists'.mp (hc.mem i hcc (by simp))
          unfold memory
          simp only [hm]
          refine ⟨hd, .inr ⟨sid, n, .dropColl i, ⟨rfl, h.client, h.exec, h.waits, h.others⟩, ?_⟩⟩
          refine .coll i rfl ⟨hc.cat, ?_, hc.queue, hc.tree⟩ rfl b ?_ d
          · intro x hx hg
            have e : x ≠ i := fun e => hg (by rw [e])
            show set s.mem i none x ≠ none
            rw [set_other _ _ _ _ e]
            exact hc.mem x hx (by simp)
          · exact es
        | createDb i => have := h.drops; rw [hp] at this; exact absurd this (by simp [Plan.drops])
        | createColl i => have := h.drops; rw [hp] at this; exact absurd this (by simp [Plan.drops])
        | insert i j => have := h.drops; rw [hp] at this; exact absurd this (by simp [Plan.drops])
        | delete i j => have := h.drops; rw [hp] at this; exact absurd this (by simp [Plan.drops])
        | update i j => have := h.drops; rw [hp] at this; exact absurd this (by simp [Plan.drops])
        | find i => have := h.drops; rw [hp] at this; exact absurd this (by simp [Plan.drops])
      · rw [if_neg (show ¬ admit ({ s with disp := [], sessions := set s.sessions sid (some ⟨n, p, false⟩) } : Sys).cat p = true from ha)]
        have ef : finishPlan { s with disp := [], sessions := set s.sessions sid (some ⟨n, p, false⟩) } sid false =
            reply { s with disp := [], sessions := set s.sessions sid (some ⟨n, p, false⟩) } sid false := by
          unfold finishPlan
          simp only [set_same]
          unfold done
          simp only [Bool.false_eq_true, if_false]
        rw [ef]
        exact drop_end (s := { s with disp := [], sessions := set s.sessions sid (some ⟨n, p, false⟩) }) false ⟨hc.cat, hc.mem, hc.queue, hc.tree⟩ hd rfl h.exec
          (fun x e => (set_other _ _ _ _ e).trans (c x)) d h.waits h.others
    | db i e hc a b c d =>
      unfold Node.dispStep
      rw [a]
      show Phase (finishPlan { s with disp := [] } sid true)
      have ef : finishPlan { s with disp := [] } sid true = reply { s with disp := [], cat := s.cat.dropNs i } sid true := by
        unfold finishPlan
        simp only [c, set_same, e, if_true]
        unfold done
        simp only [Bool.false_eq_true, if_false]
      rw [ef]
      have dn : ∀ x, (s.cat.dropNs i).computes x = true → s.cat.computes x = true := by
        intro x hx
        unfold Cat.computes Cat.dropNs at hx
        unfold Cat.computes
        simp only [Bool.and_eq_true] at hx ⊢
        by_cases ex : x.db = i
        · rw [if_pos ex] at hx; exact absurd hx.2 (by simp)
        · rw [if_neg ex, set_other _ _ _ _ ex] at hx; exact hx
      refine drop_end (s := { s with disp := [], cat := s.cat.dropNs i }) true ⟨?_, fun x hx => hc.mem x (dn x hx), hc.queue, fun x hx => hc.tree x (dn x hx)⟩ hd rfl h.exec
        (fun x e => by show s.sessions x = none; rw [c]; exact only _ x e) d h.waits h.others
      intro x hx
      have hx : (if x.db = i then false else s.cat.colls x) = true := hx
      show set s.cat.dbs i false x.db = true
      by_cases ex : x.db = i
      · rw [if_pos ex] at hx; exact absurd hx (by simp)
      · rw [if_neg ex] at hx; rw [set_other _ _ _ _ ex]; exact hc.cat x hx
    | coll i e hc a b c d =>
      unfold Node.dispStep
      rw [a]
      show Phase (finishPlan { s with disp := [] } sid true)
      have ef : finishPlan { s with disp := [] } sid true = { s with disp := [], cmds := set s.cmds sid [.removeColl i], wal := [(sid, n, p)] } := by
        unfold finishPlan
        simp only [c, set_same, e, if_true]
        unfold logged addCmd
        simp only [Bool.false_eq_true, if_false, d, b, List.nil_append]
      rw [ef]
      refine ⟨hd, .inr ⟨sid, n, p, ⟨h.drops, h.client, h.exec, h.waits, h.others⟩, ?_⟩⟩
      refine .toWal i e ⟨hc.cat, hc.mem, hc.queue, hc.tree⟩ rfl rfl c ?_
      show set s.cmds sid _ = _
      rw [show s.cmds = fun _ => [] from funext d]
    | logged i id e hc a b c d =>
      unfold Node.dispStep
      rw [a]
      show Phase (walSuccess { s with disp := [] } sid id)
      have hcat : ∃ k, s.cat.dropTable i = k ∧ k.computes i = false ∧ (∀ x, k.computes x = true → s.cat.computes x = true) ∧ ∀ x, k.colls x = true → k.dbs x.db = true := by
        refine ⟨_, rfl, ?_, ?_, ?_⟩
        · unfold Cat.dropTable
          split
          · unfold Cat.computes; simp only [set_same, Bool.and_false]
          · rename_i hx; simpa using hx
        · intro x hx
          unfold Cat.dropTable at hx
          split at hx
          · unfold Cat.computes at hx ⊢
            simp only [Bool.and_eq_true] at hx ⊢
            refine ⟨hx.1, ?_⟩
            by_cases ex : x = i
            · rw [ex, set_same] at hx; exact absurd hx.2 (by simp)
            · rw [set_other _ _ _ _ ex] at hx; exact hx.2
          · exact hx
        · intro x hx
          unfold Cat.dropTable at hx ⊢
          split at hx
          · rename_i hy
            rw [if_pos hy]
            have hx : set s.cat.colls i false x = true := hx
            by_cases ex : x = i
            · rw [ex, set_same] at hx; exact absurd hx (by simp)
            · rw [set_other _ _ _ _ ex] at hx; exact hc.cat x hx
          · rename_i hy
            rw [if_neg hy]
            exact hc.cat x hx
      obtain ⟨k, hk, k1, k2, k3⟩ := hcat
      have ef : walSuccess { s with disp := [] } sid id = reply (flush { s with disp := [], cat := k } sid id) sid true := by
        unfold walSuccess
        simp only [c, set_same, e]
        unfold updateCat
        simp only [hk, hd, Bool.false_eq_true, if_false]
      rw [ef]
      have hl : s.cmds sid = [.removeColl i] := by rw [d, set_same]
      refine drop_end (s := flush { s with disp := [], cat := k } sid id) true ⟨k3, ?_, ?_, ?_⟩ hd rfl h.exec
        (fun x ex => by show s.sessions x = none; rw [c]; exact only _ x ex) ?_ h.waits h.others
      · intro x hx _
        refine hc.mem x (k2 x hx) ?_
        intro ex
        injection ex with ex
        have hx : k.computes x = true := hx
        rw [← ex, k1] at hx
        exact absurd hx (by simp)
      · show QOk (held s.disk) (s.agent ++ s.cmds sid ++ [.fixWal id])
        rw [hl]
        refine qok_append _ _ _ (qok_append _ _ _ hc.queue ?_) ?_
        · exact ⟨fun _ _ _ e => absurd e (by simp), trivial⟩
        · exact ⟨fun _ _ _ e => absurd e (by simp), trivial⟩
      · intro x hx
        have hx : k.computes x = true := hx
        show qafter (held s.disk) (s.agent ++ s.cmds sid ++ [.fixWal id]) x = true
        rw [hl, qafter_append, qafter_append]
        show set (qafter (held s.disk) s.agent) i false x = true
        have ex : x ≠ i := fun ex => by rw [ex, k1] at hx; exact absurd hx (by simp)
        rw [set_other _ _ _ _ ex]
        exact hc.tree x (k2 x hx)
      · intro x
        show set s.cmds sid [] x = []
        by_cases ex : x = sid
        · rw [ex, set_same]
        · rw [set_other _ _ _ _ ex, d, set_other _ _ _ _ ex]

theorem Phase.request {s : Sys} (h : Phase s) (hi : Inv (view s)) (k : Nat) (p : Plan) (h1 : p.drops = true → ∀ x, s.open' x = none)
    (h2 : ∀ x n q, s.open' x = some (n, q) → q.drops = false) : Phase (request s k p) := by
  obtain ⟨hd, ⟨h, ho⟩ | ⟨sid, n, q, h, _⟩⟩ := h
  · unfold Node.request
    split
    · cases hx : s.open' (.client k) with
      | some v => exact ⟨hd, .inl ⟨h, ho⟩⟩
      | none =>
        simp only
        by_cases hp : p.drops = true
        · have hn := h1 hp
          obtain ⟨a, b, c, d, e⟩ := rest_of_good h hi hn
          refine ⟨hd, .inr ⟨.client k, s.next, p, ⟨hp, ⟨k, rfl⟩, b, set_same _ _ _, fun x ex => (set_other _ _ _ _ ex).trans (hn x)⟩, ?_⟩⟩
          exact .asked ⟨h.core.cat, h.core.mem, h.core.queue, h.core.tree⟩ (by show s.disp ++ _ = _; rw [a]; rfl) c d e
        · have hp : p.drops = false := by simpa using hp
          refine ⟨hd, .inl ⟨⟨⟨h.core.cat, h.core.mem, h.core.queue, h.core.tree⟩, h.own, h.exec, ?_, h.ses, h.made, ?_, h.cmds, h.rem, h.keep⟩, ?_⟩⟩
          · intro x ok hm
            rcases List.mem_append.mp hm with hm | hm
            · exact h.fin x ok hm
            · exact absurd (List.mem_singleton.mp hm) (by simp)
          · intro x v c e1 e2 e3
            refine h.noted x v c e1 e2 ?_
            rcases e3 with e3 | ⟨id, e3⟩
            · exact .inl e3
            · rcases List.mem_append.mp e3 with e3 | e3
              · exact .inr ⟨id, e3⟩
              · exact absurd (List.mem_singleton.mp e3) (by simp)
          · intro x n q hq
            have hq : set s.open' (.client k) (some (s.next, p)) x = some (n, q) := hq
            by_cases ex : x = .client k
            · rw [ex, set_same] at hq
              injection hq with hq
              injection hq with _ hq
              rw [← hq]; exact hp
            · rw [set_other _ _ _ _ ex] at hq; exact ho x n q hq
    · exact ⟨hd, .inl ⟨h, ho⟩⟩
  · have := h2 sid n q h.waits
    rw [h.drops] at this
    exact absurd this (by simp)

theorem phase_init : Phase init := by
  refine ⟨rfl, .inl ⟨good_rest ⟨?_, ?_, trivial, ?_⟩ rfl rfl (fun _ => rfl) (fun _ => rfl), ?_⟩⟩
  · intro x hx; exact absurd hx (by simp [init])
  · intro x hx; exact absurd hx (by simp [init, Cat.computes])
  · intro x hx; exact absurd hx (by simp [init, Cat.computes])
  · intro x n q hx; exact absurd hx (by simp [init])

theorem phase_run (es : List Event) (hc : Event.crash ∉ es) (ha : DropsAlone es) : Phase (run init es) := by
  suffices h : ∀ (b a : List Event), es = a ++ b → Phase (run init a) → Phase (run init es) by
    exact h es [] rfl phase_init
  intro b
  induction b with
  | nil => intro a e h; rw [e, List.append_nil]; exact h
  | cons e b ih =>
    intro a he h
    refine ih (a ++ [e]) (by rw [he, List.append_assoc]; rfl) ?_
    have hr : run init (a ++ [e]) = step (run init a) e := by
      show List.foldl step init (a ++ [e]) = _
      rw [List.foldl_append]; rfl
    rw [hr]
    have st := state_run a
    have hi := st.inv
    have hd := h.1
    cases e with
    | crash => exact absurd (by rw [he]; exact List.mem_append_right _ List.mem_cons_self) hc
    | request k p =>
      obtain ⟨h1, h2⟩ := ha a k p b he
      unfold step
      simp only [hd, Bool.false_eq_true, if_false]
      exact h.request hi k p h1 h2
    | disp =>
      have es : step (run init a) .disp = dispStep (run init a) := by unfold step; simp only [hd, Bool.false_eq_true, if_false]
      rw [es]
      refine h.dispStep hi ?_
      intro x v hx
      cases hm : (run init a).disp with
      | nil =>
        have : dispStep (run init a) = run init a := by unfold dispStep; rw [hm]
        rw [this] at hx; exact hx
      | cons m ms =>
        obtain ⟨sv, _⟩ := served_disp hi hm
        by_cases ex : x = m.sid
        · rcases sv.said with ⟨_, q⟩ | ⟨_, _, _, _, q, _⟩
          · rw [ex, q] at hx; rw [ex]; exact hx
          · rw [ex, q] at hx; exact absurd hx (by simp)
        · rw [sv.others x ex] at hx; exact hx
    | exec => unfold step; simp only [hd, Bool.false_eq_true, if_false]; exact h.execStep
    | wal => unfold step; simp only [hd, Bool.false_eq_true, if_false]; exact h.walStep
    | agent => unfold step; simp only [hd, Bool.false_eq_true, if_false]; exact h.agent

end Verif.Node
