import Verif.Node.CStartSpec
import Verif.Node.DdlProps
/-!
C110: what a C program finds when it starts again, and what becomes of the data on the disk.
-/
namespace Verif.Node

theorem cstart_ready (s : Sys) : Ready (cstart s) :=
  ⟨rfl, rfl, rfl, rfl, rfl, fun _ => rfl, fun _ => rfl, fun _ => rfl, fun c h => absurd h (by simp [cstart, init, Cat.computes])⟩

theorem cstart_shows (s : Sys) : Shows (cstart s) World.empty :=
  ⟨rfl, rfl, fun c h => absurd h (by simp [World.empty])⟩

/-- C110: whatever happened before, after the start of a C program the requests are answered as if nothing had ever been stored. -/
theorem C110_forgets (s : Sys) (ps : List (Nat × Plan)) (h : World.empty.placed (ps.map Prod.snd)) :
    (serve (cstart s) ps).answers.reverse.map (fun a => a.2.2) =
      s.answers.reverse.map (fun a => a.2.2) ++ World.empty.answers (ps.map Prod.snd) :=
  serve_answers ps (cstart s) World.empty (cstart_ready s) (cstart_shows s) h

/-- C110: whatever happened before, after the start of a C program no collection can be read: the client is told that it does not exist. -/
theorem C110_find_fails (s : Sys) (k : Nat) (c : Coll) : toldOf (cstart s) k c = some false := by
  obtain ⟨_, _, h3, _⟩ := ask_world (cstart_ready s) (cstart_shows s) k (.find c)
  unfold toldOf
  rw [h3, List.find?_cons_of_pos (by simp)]
  rfl

/-- C110: a collection that a C program creates is empty, whatever was stored in a collection of that name before, unless the program itself
dropped its database. -/
theorem C110_created_empty (s : Sys) (ps : List (Nat × Plan)) (k : Nat) (c : Coll) (n : Nat) (hp : ∀ x ∈ ps, x.2 ≠ .dropDb c.db)
    (ha : (serve (cstart s) (ps ++ [(k, .createColl c)])).answers = (n, .createColl c, true) :: (serve (cstart s) ps).answers) :
    docs (serve (cstart s) (ps ++ [(k, .createColl c)])) c = [] := by
  obtain ⟨h, hw⟩ := serve_world ps (cstart s) World.empty (cstart_ready s) (cstart_shows s)
  have ho : Owned (serve (cstart s) ps) c :=
    serve_owned c ps (cstart s) World.empty (cstart_ready s) (cstart_shows s) (fun h => absurd rfl h) hp
  rw [serve_append, serve_cons] at ha ⊢
  obtain ⟨_, _, h3, _⟩ := ask_world h hw k (.createColl c)
  have hadm : admit (serve (cstart s) ps).cat (.createColl c) = true := by
    rw [admit_world hw]
    have := h3.symm.trans ha
    injection this with this _
    injection this with _ this
    injection this
  show docs (run (serve (cstart s) ps) (ask k (.createColl c))) c = []
  rw [ask_createColl h k c hadm]
  have hcc : (serve (cstart s) ps).cat.computes c = false := by simpa [admit] using hadm
  show (match (if (serve (cstart s) ps).mem c = none then set (serve (cstart s) ps).mem c (some ((serve (cstart s) ps).gen, []))
      else (serve (cstart s) ps).mem) c with
    | some (_, l) => l
    | none => []) = []
  by_cases hm : (serve (cstart s) ps).mem c = none
  · rw [if_pos hm, set_same]
  · rw [if_neg hm]
    by_contra hne
    have := ho hne
    rw [hcc] at this
    exact absurd this (by simp)

/-! ## A program that creates nothing -/

/-- Nothing is known to the node, and nothing under way but requests that will be refused. -/
structure Blank (s t : Sys) : Prop where
  msgs : ∀ m ∈ t.disp, ∃ k n p, m = .plan (.client k) n p ∧ (∀ d, p ≠ .createDb d) ∧ ∀ c, p ≠ .createColl c
  exec : t.exec = []
  wal : t.wal = []
  agent : t.agent = []
  live : t.dead = false
  loaded : t.loading = 0
  cat : t.cat = ⟨fun _ => false, fun _ => false⟩
  free : ∀ x, t.sessions x = none
  log : t.log = s.log
  disk : t.disk = s.disk.reopen
  answers : ∃ l, t.answers = l ++ s.answers ∧ ∀ a ∈ l, a.2.2 = false

theorem blank_start (s : Sys) : Blank s (cstart s) :=
  ⟨fun m h => absurd h (by simp [cstart, init]), rfl, rfl, rfl, rfl, rfl, rfl, fun _ => rfl, rfl, rfl, [], rfl, by simp⟩

theorem admit_blank (p : Plan) (h1 : ∀ d, p ≠ .createDb d) (h2 : ∀ c, p ≠ .createColl c) : admit ⟨fun _ => false, fun _ => false⟩ p = false := by
  cases p with
  | createDb d => exact absurd rfl (h1 d)
  | createColl c => exact absurd rfl (h2 c)
  | dropDb d => rfl
  | dropColl c => rfl
  | insert c l => rfl
  | delete c l => rfl
  | update c l => rfl
  | find c => rfl

theorem blank_step {s t : Sys} (h : Blank s t) (e : Event) (hb : Bare e) : Blank s (step t e) := by
  cases e with
  | crash => exact absurd hb (by simp [Bare])
  | exec =>
    show Blank s (if t.dead then t else execStep t)
    rw [if_neg (by rw [h.live]; simp)]
    unfold execStep
    rw [h.exec]
    exact h
  | wal =>
    show Blank s (if t.dead then t else walStep t)
    rw [if_neg (by rw [h.live]; simp)]
    unfold walStep
    rw [h.wal]
    exact h
  | agent =>
    show Blank s (if t.dead then t else agentStep t)
    rw [if_neg (by rw [h.live]; simp)]
    unfold agentStep
    rw [h.agent]
    exact h
  | request k p =>
    show Blank s (if t.dead then t else request t k p)
    rw [if_neg (by rw [h.live]; simp)]
    unfold request
    rw [if_pos h.loaded]
    split
    · exact h
    · refine ⟨?_, h.exec, h.wal, h.agent, h.live, h.loaded, h.cat, h.free, h.log, h.disk, h.answers⟩
      intro m hm
      rcases List.mem_append.mp hm with hm | hm
      · exact h.msgs m hm
      · refine ⟨k, t.next, p, List.mem_singleton.mp hm, ?_, ?_⟩
        · intro d e; subst e; exact hb
        · intro c e; subst e; exact hb
  | disp =>
    show Blank s (if t.dead then t else dispStep t)
    rw [if_neg (by rw [h.live]; simp)]
    unfold dispStep
    cases hm : t.disp with
    | nil => exact h
    | cons m ms =>
      obtain ⟨k, n, p, e, h1, h2⟩ := h.msgs m (by rw [hm]; simp)
      subst e
      have hms : ∀ m ∈ ms, ∃ k n p, m = .plan (.client k) n p ∧ (∀ d, p ≠ .createDb d) ∧ ∀ c, p ≠ .createColl c :=
        fun m hm' => h.msgs m (by rw [hm]; exact List.mem_cons_of_mem _ hm')
      have e1 : makeSession { t with disp := ms } (.client k) ⟨n, p, false⟩ =
          { t with disp := ms, sessions := set t.sessions (.client k) (some ⟨n, p, false⟩) } := by
        unfold makeSession
        simp only [h.free]
      have e2 : finishPlan { t with disp := ms, sessions := set t.sessions (.client k) (some ⟨n, p, false⟩) } (.client k) false =
          reply { t with disp := ms, sessions := set t.sessions (.client k) (some ⟨n, p, false⟩) } (.client k) false := by
        unfold finishPlan
        simp [set, done]
      have e3 : ∀ x, set (set t.sessions (.client k) (some ⟨n, p, false⟩)) (.client k) none x = none := by
        intro x
        unfold set
        split
        · rfl
        · exact h.free x
      have e4 : execPlan { t with disp := ms } (.client k) ⟨n, p, false⟩ =
          reply { t with disp := ms, sessions := set t.sessions (.client k) (some ⟨n, p, false⟩) } (.client k) false := by
        show (if admit (makeSession { t with disp := ms } (.client k) ⟨n, p, false⟩).cat p then
            memory (makeSession { t with disp := ms } (.client k) ⟨n, p, false⟩) (.client k) p
          else finishPlan (makeSession { t with disp := ms } (.client k) ⟨n, p, false⟩) (.client k) false) = _
        rw [e1, if_neg (by show ¬ admit t.cat p = true; rw [h.cat, admit_blank p h1 h2]; simp), e2]
      show Blank s (execPlan { t with disp := ms } (.client k) ⟨n, p, false⟩)
      rw [e4]
      obtain ⟨l, hl, hf⟩ := h.answers
      unfold reply
      split
      · refine ⟨hms, h.exec, h.wal, h.agent, h.live, h.loaded, h.cat, e3, h.log, h.disk, ?_⟩
        rename_i a _ _
        refine ⟨_ :: l, by rw [List.cons_append, ← hl], ?_⟩
        intro x hx
        rcases List.mem_cons.mp hx with hx | hx
        · rw [hx]
        · exact hf x hx
      · exact ⟨hms, h.exec, h.wal, h.agent, h.live, h.loaded, h.cat, e3, h.log, h.disk, l, hl, hf⟩

theorem blank_run (s : Sys) (es : List Event) : ∀ t, Blank s t → (∀ e ∈ es, Bare e) → Blank s (run t es) := by
  induction es with
  | nil => exact fun t h _ => h
  | cons e es ih => exact fun t h hb => ih _ (blank_step h e (hb e (by simp))) (fun x hx => hb x (by simp [hx]))

/-! ## What a start with `load` depends on -/

/-- The same node with other answers recorded before. -/
def older (x : List (Nat × Plan × Bool)) (y : Nat) (s : Sys) : Sys := { s with answers := s.answers ++ x, next := y }

theorem older_reply (x : List (Nat × Plan × Bool)) (y : Nat) (s : Sys) (sid : Sid) (ok : Bool) :
    reply (older x y s) sid ok = older x y (reply s sid ok) := by
  have e : (older x y s).open' sid = s.open' sid := rfl
  unfold reply
  rw [e]
  cases s.open' sid <;> rfl

theorem older_updateCat (x : List (Nat × Plan × Bool)) (y : Nat) (s : Sys) (p : Plan) :
    updateCat (older x y s) p = older x y (updateCat s p) := by
  cases p <;> try rfl
  rename_i c l
  show (if s.cat.computes c then older x y s else _) = older x y (if s.cat.computes c then s else _)
  split <;> rfl

theorem older_walSuccess (x : List (Nat × Plan × Bool)) (y : Nat) (s : Sys) (sid : Sid) (id : Nat) :
    walSuccess (older x y s) sid id = older x y (walSuccess s sid id) := by
  have e : (older x y s).sessions sid = s.sessions sid := rfl
  unfold walSuccess
  rw [e]
  cases s.sessions sid with
  | none => rfl
  | some ses =>
    show (if (updateCat (older x y s) ses.plan).dead then updateCat (older x y s) ses.plan else
        (if ses.replay then flush (updateCat (older x y s) ses.plan) sid id else reply (flush (updateCat (older x y s) ses.plan) sid id) sid true)) =
      older x y (if (updateCat s ses.plan).dead then updateCat s ses.plan else
        (if ses.replay then flush (updateCat s ses.plan) sid id else reply (flush (updateCat s ses.plan) sid id) sid true))
    rw [older_updateCat]
    have e2 : (older x y (updateCat s ses.plan)).dead = (updateCat s ses.plan).dead := rfl
    rw [e2]
    split
    · rfl
    · split
      · rfl
      · exact older_reply x y (flush (updateCat s ses.plan) sid id) sid true

theorem older_done (x : List (Nat × Plan × Bool)) (y : Nat) (s : Sys) (sid : Sid) (ses : Ses) (ok : Bool) :
    done (older x y s) sid ses ok = older x y (done s sid ses ok) := by
  unfold done
  split
  · rfl
  · exact older_reply x y s sid ok

theorem older_logged (x : List (Nat × Plan × Bool)) (y : Nat) (s : Sys) (sid : Sid) (ses : Ses) :
    logged (older x y s) sid ses = older x y (logged s sid ses) := by
  unfold logged
  split
  · have e : (older x y s).lastWal = s.lastWal := rfl
    rw [e, older_walSuccess, older_done]
  · rfl

theorem older_finishPlan (x : List (Nat × Plan × Bool)) (y : Nat) (s : Sys) (sid : Sid) (ok : Bool) :
    finishPlan (older x y s) sid ok = older x y (finishPlan s sid ok) := by
  have e : (older x y s).sessions sid = s.sessions sid := rfl
  unfold finishPlan
  rw [e]
  cases s.sessions sid with
  | none => rfl
  | some ses =>
    cases ok with
    | false => exact older_done x y s sid ses false
    | true =>
      cases hp : ses.plan with
      | createDb d => simp only [hp]; exact older_logged x y (addCmd s sid (.appendDb d)) sid ses
      | dropDb d => simp only [hp]; exact older_done x y { s with cat := s.cat.dropNs d } sid ses true
      | createColl c => simp only [hp]; exact older_logged x y (addCmd s sid (.appendColl c)) sid ses
      | dropColl c => simp only [hp]; exact older_logged x y (addCmd s sid (.removeColl c)) sid ses
      | insert c l => simp only [hp]; exact older_logged x y s sid ses
      | delete c l => simp only [hp]; exact older_logged x y s sid ses
      | update c l => simp only [hp]; exact older_logged x y s sid ses
      | find c => simp only [hp]; exact older_done x y s sid ses true

theorem older_toExec (x : List (Nat × Plan × Bool)) (y : Nat) (s : Sys) (sid : Sid) (p : Plan) (c : Coll) :
    toExec (older x y s) sid p c = older x y (toExec s sid p c) := by
  have e : (older x y s).mem c = s.mem c := rfl
  unfold toExec
  rw [e]
  cases s.mem c <;> rfl

theorem older_memory (x : List (Nat × Plan × Bool)) (y : Nat) (s : Sys) (sid : Sid) (p : Plan) :
    memory (older x y s) sid p = older x y (memory s sid p) := by
  cases p with
  | createDb d => rfl
  | dropDb d => rfl
  | createColl c =>
    have e : (older x y s).mem c = s.mem c := rfl
    unfold memory
    simp only [e]
    cases s.mem c <;> rfl
  | dropColl c =>
    have e : (older x y s).mem c = s.mem c := rfl
    unfold memory
    simp only [e]
    cases s.mem c <;> rfl
  | insert c l => exact older_toExec x y s sid _ c
  | delete c l => exact older_toExec x y s sid _ c
  | update c l => exact older_toExec x y s sid _ c
  | find c => exact older_toExec x y s sid _ c

theorem older_execPlan (x : List (Nat × Plan × Bool)) (y : Nat) (s : Sys) (sid : Sid) (ses : Ses) :
    execPlan (older x y s) sid ses = older x y (execPlan s sid ses) := by
  have e : makeSession (older x y s) sid ses = older x y (makeSession s sid ses) := by
    have e : (older x y s).sessions sid = s.sessions sid := rfl
    unfold makeSession
    rw [e]
    cases s.sessions sid <;> rfl
  show (if admit (makeSession (older x y s) sid ses).cat ses.plan then memory (makeSession (older x y s) sid ses) sid ses.plan
      else finishPlan (makeSession (older x y s) sid ses) sid false) =
    older x y (if admit (makeSession s sid ses).cat ses.plan then memory (makeSession s sid ses) sid ses.plan
      else finishPlan (makeSession s sid ses) sid false)
  rw [e]
  have e2 : (older x y (makeSession s sid ses)).cat = (makeSession s sid ses).cat := rfl
  rw [e2]
  split
  · exact older_memory x y _ sid _
  · exact older_finishPlan x y _ sid _

theorem older_replay (x : List (Nat × Plan × Bool)) (y : Nat) (rs : List Rec) : ∀ (s : Sys) (k : Nat),
    replayFrom (older x y s) k rs = older x y (replayFrom s k rs) := by
  induction rs with
  | nil => exact fun s k => rfl
  | cons r rs ih =>
    intro s k
    show (if s.dead then older x y s else replayFrom (execPlan (older x y s) (.replay k) ⟨r.serial, r.plan, true⟩) (k + 1) rs) =
      older x y (if s.dead then s else replayFrom (execPlan s (.replay k) ⟨r.serial, r.plan, true⟩) (k + 1) rs)
    split
    · rfl
    · rw [older_execPlan, ih]

/-- A start with `load` from a log and a disk. -/
def opened (log : List Rec) (disk : Disk) : Sys := restart { init with log := log, disk := disk }

theorem restart_opened (s : Sys) : restart s = older s.answers s.next (opened s.log s.disk) := by
  unfold opened restart
  have e : pending { init with log := s.log, disk := s.disk } = pending s := rfl
  simp only [e]
  split
  · rfl
  · rw [← older_replay]
    rfl

theorem reopen_twice (k : Disk) : k.reopen.reopen = k.reopen := by
  have h1 : k.reopen.reopen.colls = k.reopen.colls := by
    funext c
    show (k.dbs.contains c.db && (k.dbs.contains c.db && k.colls c)) = (k.dbs.contains c.db && k.colls c)
    cases k.dbs.contains c.db <;> rfl
  have h2 : k.reopen.reopen.trees = k.reopen.trees := by
    funext c
    show (if k.dbs.contains c.db && (k.dbs.contains c.db && k.colls c) then
        some ((if k.dbs.contains c.db && k.colls c then some ((k.trees c).getD []) else none).getD []) else none) =
      (if k.dbs.contains c.db && k.colls c then some ((k.trees c).getD []) else none)
    cases k.dbs.contains c.db <;> cases k.colls c <;> rfl
  show (⟨k.reopen.reopen.dbs, k.reopen.reopen.colls, k.reopen.reopen.trees, k.reopen.reopen.wal⟩ : Disk) = k.reopen
  rw [h1, h2]
  rfl

theorem opened_reopen (log : List Rec) (k : Disk) : opened log k.reopen = opened log k := by
  unfold opened restart
  have e : pending { init with log := log, disk := k.reopen } = pending { init with log := log, disk := k } := rfl
  simp only [e, reopen_twice]

/-- C110, the part that holds: a C program that creates nothing changes nothing. Whatever it asks for, in whatever schedule, it is refused, the
process goes on, and a Python program that starts afterwards finds what it would have found without it: the same databases, collections
and documents. -/
theorem C110_bare_partial (s : Sys) (es : List Event) (hb : ∀ e ∈ es, Bare e) :
    (run (cstart s) es).dead = false ∧ (∃ l, (run (cstart s) es).answers = l ++ s.answers ∧ ∀ a ∈ l, a.2.2 = false) ∧
      (restart (run (cstart s) es)).cat = (restart s).cat ∧ ∀ c, docs (restart (run (cstart s) es)) c = docs (restart s) c := by
  have h := blank_run s es _ (blank_start s) hb
  have e : restart (run (cstart s) es) = older (run (cstart s) es).answers (run (cstart s) es).next (opened s.log s.disk) := by
    rw [restart_opened, h.log, h.disk, opened_reopen]
  refine ⟨h.live, h.answers, ?_, fun c => ?_⟩
  · rw [e, restart_opened s]
    rfl
  · rw [e, restart_opened s]
    rfl

/-! ## What goes wrong -/

/-- A program stores a document and ends when everything is on the disk. -/
def firstRun : List CEvent := ([.createDb 1, .createColl ⟨1, 5⟩, .insert ⟨1, 5⟩ [⟨1, 10⟩]].flatMap fun p => (ask 0 p).map .act) ++ List.replicate 12 (.act .agent)

/-- A C program with the same directory creates what it does not find and stores a document. -/
def secondRun : List CEvent := .start :: (([.find ⟨1, 5⟩, .createDb 1, .createColl ⟨1, 5⟩, .insert ⟨1, 5⟩ [⟨1, 20⟩]].flatMap fun p => (ask 0 p).map .act)
  ++ List.replicate 12 (.act .agent))

/-- The full claim: what was there before a C program starts is there afterwards. -/
def C110_claim : Prop := ∀ (es : List CEvent) (k : Nat) (c : Coll), (crun init es).agent = [] → toldOf (crun init es) k c = some true →
  toldOf (crun init (es ++ [.start])) k c = some true

theorem C110_fails : ¬ C110_claim := by
  intro h
  have := h firstRun 0 ⟨1, 5⟩ (by decide +kernel) (by decide +kernel)
  rw [show crun init (firstRun ++ [.start]) = cstart (crun init firstRun) from by simp [crun, List.foldl_append, cstep], C110_find_fails] at this
  exact absurd this (by simp)

/-- The second program is told that the document with the same `_id` is stored, and finds it. A Python program that starts afterwards finds
the one of the first program instead: the accepted one is gone. -/
theorem C110_insert_lost_fails :
    (crun init (firstRun ++ secondRun)).answers.reverse.map (fun a => a.2.2) = [true, true, true, false, true, true, true] ∧
      docs (crun init (firstRun ++ secondRun)) ⟨1, 5⟩ = [⟨1, 20⟩] ∧ (crun init (firstRun ++ secondRun)).agent = [] ∧
      docs (crun init (firstRun ++ secondRun ++ [.act .crash])) ⟨1, 5⟩ = [⟨1, 10⟩] := by
  decide +kernel

/-- A C program that asks and is refused, over a directory with data. -/
example : (∀ e ∈ ask 0 (.insert ⟨1, 5⟩ [⟨1, 20⟩]), Bare e) ∧
    (run (cstart (crun init firstRun)) (ask 0 (.insert ⟨1, 5⟩ [⟨1, 20⟩]))).answers.map (fun a => a.2.2) = [false, true, true, true] ∧
    docs (restart (crun init firstRun)) ⟨1, 5⟩ = [⟨1, 10⟩] :=
  ⟨by simp [ask, Bare], by decide +kernel, by decide +kernel⟩

/-- A collection created by a C program that was there before with a document. -/
example : (serve (cstart (crun init firstRun)) ([(0, .createDb 1)] ++ [(0, .createColl ⟨1, 5⟩)])).answers =
    (4, .createColl ⟨1, 5⟩, true) :: (serve (cstart (crun init firstRun)) [(0, .createDb 1)]).answers := rfl

end Verif.Node
