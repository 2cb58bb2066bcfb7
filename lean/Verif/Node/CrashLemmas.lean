import Verif.Node.ContentProps
/-!
Many clients at once: the order of the records is the order in which the executor ran the writes, and the commands for the disk follow it.
-/
namespace Verif.Node

/-- The documents of all the collections. -/
abbrev Docs := Coll → List Doc

/-- A write, run by the executor. -/
def play (D : Docs) (p : Plan) : Docs := match p.coll with
  | some c => set D c (runPlan (D c) p).1
  | none => D

/-- Writes, one after the other. -/
def plays (D : Docs) (ps : List Plan) : Docs := ps.foldl play D

/-- The commands for the disk. -/
def cmdOf (D : Docs) (p : Plan) : List Cmd := match p.coll with
  | some c => (runPlan (D c) p).2
  | none => []

theorem plays_append (D : Docs) (a b : List Plan) : plays D (a ++ b) = plays (plays D a) b := List.foldl_append

theorem plays_snoc (D : Docs) (a : List Plan) (p : Plan) : plays D (a ++ [p]) = play (plays D a) p := by rw [plays_append]; rfl

/-- The commands kept for the sessions are those of their writes. -/
def Owe (cmds : Sid → List Cmd) (D : Docs) : List (Sid × Plan) → Prop
  | [] => True
  | x :: xs => cmds x.1 = cmdOf D x.2 ∧ Owe cmds (play D x.2) xs

theorem owe_congr (T : List (Sid × Plan)) : ∀ (c c' : Sid → List Cmd) (D : Docs), (∀ x ∈ T, c' x.1 = c x.1) → Owe c D T → Owe c' D T := by
  induction T with
  | nil => intro _ _ _ _ _; trivial
  | cons x xs ih =>
    intro c c' D h ho
    exact ⟨(h x List.mem_cons_self).trans ho.1, ih c c' _ (fun y hy => h y (List.mem_cons_of_mem _ hy)) ho.2⟩

theorem owe_snoc (T : List (Sid × Plan)) : ∀ (c : Sid → List Cmd) (D : Docs) (x : Sid × Plan), Owe c D T →
    c x.1 = cmdOf (plays D (T.map Prod.snd)) x.2 → Owe c D (T ++ [x]) := by
  induction T with
  | nil => intro c D x _ h; exact ⟨h, trivial⟩
  | cons y ys ih => intro c D x ho h; exact ⟨ho.1, ih c _ x ho.2 h⟩

/-- The acknowledgements of the log under way. -/
def okOf : DMsg → Option (Sid × Nat)
  | .walOk sid id => some (sid, id)
  | _ => none

/-- The finished writes under way to the dispatcher. -/
def finOf (ss : Sid → Option Ses) : DMsg → Option (Sid × Plan)
  | .finish sid _ => match ss sid with
    | some ses => if ses.plan.writes then some (sid, ses.plan) else none
    | none => none
  | _ => none

theorem finOf_congr {ss ss' : Sid → Option Ses} {l : List DMsg} (h : ∀ m ∈ l, ss' m.sid = ss m.sid) : l.filterMap (finOf ss') = l.filterMap (finOf ss) := by
  refine List.filterMap_congr (fun m hm => ?_)
  cases m with
  | finish sid ok => unfold finOf; simp only; rw [show ss' sid = ss sid from h _ hm]
  | _ => rfl

/-- The writes that the executor ran and `wal_success` has not seen, in the order they were run. -/
def todo (s : Sys) (B : List (Sid × Rec)) : List (Sid × Plan) :=
  B.map (fun b => (b.1, b.2.plan)) ++ (s.wal.map (fun x => (x.1, x.2.2)) ++ s.disp.filterMap (finOf s.sessions))

/-- The new records: those `wal_success` has seen, and those it has not. -/
structure Mid (s0 s : Sys) (A : List Rec) (B : List (Sid × Rec)) : Prop where
  inv : Inv (view s)
  cat : s.cat = s0.cat
  live : s.dead = false
  log : s.log = s0.log ++ (A ++ B.map Prod.snd)
  oks : s.disp.filterMap okOf = B.map fun b => (b.1, b.2.id)
  held : ∀ b ∈ B, s.sessions b.1 = some ⟨b.2.serial, b.2.plan, false⟩
  seen : ∀ r ∈ A, Simple r.plan ∧ r.plan.writes = true ∧ admit s0.cat r.plan = true
  logged : ∀ b ∈ B, b.2.plan.writes = true
  queued : ∀ x ∈ s.wal, x.2.2.writes = true
  fins : ∀ sid ok, DMsg.finish sid ok ∈ s.disp → ok = true ∧ ∃ n p, s.sessions sid = some ⟨n, p, false⟩
  news : ∀ sid n p, DMsg.plan sid n p ∈ s.disp → Simple p
  exs : ∀ sid g p, (sid, g, p) ∈ s.exec → ∃ n c l, s.sessions sid = some ⟨n, p, false⟩ ∧ p.coll = some c ∧ s0.mem c = some (g, l)
  ses : ∀ sid n p, s.sessions sid = some ⟨n, p, false⟩ → Simple p ∧ admit s0.cat p = true
  mem : ∀ c, s.mem c = (s0.mem c).map fun v => (v.1, plays (docs s0) (A.map Rec.plan ++ (todo s B).map Prod.snd) c)
  cmds : Owe s.cmds (plays (docs s0) (A.map Rec.plan)) (todo s B)
  clear : ∀ k, Sid.client k ∉ (todo s B).map Prod.fst → s.cmds (.client k) = []

/-- The sessions of the unseen writes have a message under way. -/
theorem todo_flight {s : Sys} {B : List (Sid × Rec)} (ho : s.disp.filterMap okOf = B.map fun b => (b.1, b.2.id)) :
    ∀ x ∈ (todo s B).map Prod.fst, x ∈ s.disp.map DMsg.sid ∨ x ∈ s.wal.map Prod.fst := by
  intro x hx
  unfold todo at hx
  simp only [List.map_append, List.map_map, List.mem_append] at hx
  rcases hx with hx | hx | hx
  · left
    obtain ⟨b, hb, e⟩ := List.mem_map.mp hx
    have : (b.1, b.2.id) ∈ s.disp.filterMap okOf := by rw [ho]; exact List.mem_map.mpr ⟨b, hb, rfl⟩
    obtain ⟨m, hm, hmo⟩ := List.mem_filterMap.mp this
    cases m with
    | walOk sid id =>
      have hmo : (sid, id) = (b.1, b.2.id) := Option.some.inj hmo
      injection hmo with h1 _
      exact List.mem_map.mpr ⟨_, hm, h1.trans e⟩
    | _ => exact absurd hmo (by simp [okOf])
  · right
    obtain ⟨y, hy, e⟩ := List.mem_map.mp hx
    exact List.mem_map.mpr ⟨y, hy, e⟩
  · left
    obtain ⟨y, hy, e⟩ := List.mem_map.mp hx
    obtain ⟨m, hm, hmo⟩ := List.mem_filterMap.mp hy
    cases m with
    | finish sid ok =>
      unfold finOf at hmo
      simp only at hmo
      split at hmo
      · split at hmo
        · have hmo := Option.some.inj hmo
          exact List.mem_map.mpr ⟨_, hm, by rw [← e, ← hmo]; rfl⟩
        · exact absurd hmo (by simp)
      · exact absurd hmo (by simp)
    | _ => exact absurd hmo (by simp [finOf])

theorem todo_view {s : Sys} {B : List (Sid × Rec)} (ho : s.disp.filterMap okOf = B.map fun b => (b.1, b.2.id)) {x : Sid}
    (hx : x ∈ (todo s B).map Prod.fst) : x ∈ (view s).flight := by
  rcases todo_flight ho x hx with h | h
  · exact List.mem_append_left _ h
  · exact List.mem_append_right _ (List.mem_append_right _ h)

/-- Where the collections of admitted writes are. -/
structure Home (s0 : Sys) : Prop where
  known : ∀ c, s0.cat.computes c = true → s0.mem c ≠ none

theorem simple_coll {p : Plan} (h : Simple p) : ∃ c, p.coll = some c := by
  cases p <;> first | exact ⟨_, rfl⟩ | exact absurd h (by simp [Simple])

theorem simple_admit {p : Plan} {c : Coll} (h : Simple p) (hc : p.coll = some c) (k : Cat) : admit k p = k.computes c := by
  cases p <;> first | (injection hc with hc; subst hc; rfl) | exact absurd h (by simp [Simple])

theorem finish_write (t : Sys) (sid : Sid) (n : Nat) (p : Plan) (hs : t.sessions sid = some ⟨n, p, false⟩) (hw : p.writes = true) :
    finishPlan t sid true = { t with wal := t.wal ++ [(sid, n, p)] } := by
  unfold finishPlan
  rw [hs]
  cases p <;> first | rfl | exact absurd hw (by simp [Plan.writes])

theorem finish_find (t : Sys) (sid : Sid) (n : Nat) (p : Plan) (hs : t.sessions sid = some ⟨n, p, false⟩) (hp : Simple p) (hw : p.writes = false)
    (ho : t.open' sid = some (n, p)) :
    finishPlan t sid true = { t with open' := set t.open' sid none, answers := (n, p, true) :: t.answers, sessions := set t.sessions sid none } := by
  unfold finishPlan
  rw [hs]
  cases p with
  | find c =>
    simp [done, reply, ho]
  | insert c ds => exact absurd hw (by simp [Plan.writes])
  | delete c q => exact absurd hw (by simp [Plan.writes])
  | update c g => exact absurd hw (by simp [Plan.writes])
  | _ => exact absurd hp (by simp [Simple])

/-- The node after an acknowledgement of the log. -/
def acked (t : Sys) (sid : Sid) (id n : Nat) (p : Plan) : Sys :=
  { t with agent := t.agent ++ t.cmds sid ++ [.fixWal id], cmds := set t.cmds sid [], open' := set t.open' sid none, answers := (n, p, true) :: t.answers, sessions := set t.sessions sid none }

theorem wal_acked (t : Sys) (sid : Sid) (id n : Nat) (p : Plan) (hs : t.sessions sid = some ⟨n, p, false⟩) (hu : updateCat t p = t) (hl : t.dead = false)
    (ho : t.open' sid = some (n, p)) : walSuccess t sid id = acked t sid id n p := by
  unfold walSuccess
  rw [hs]
  simp only [hu]
  rw [if_neg (by rw [hl]; simp), if_neg (by simp)]
  unfold flush reply acked
  simp only [ho]

/-- A request. -/
theorem Mid.request {s0 s : Sys} {A : List Rec} {B : List (Sid × Rec)} (h : Mid s0 s A B) (k : Nat) (p : Plan) (hp : Simple p) :
    Mid s0 (request s k p) A B := by
  have hi := h.inv.request k p
  unfold Node.request at hi ⊢
  split
  · split
    · exact h
    · rename_i hld _ hop
      rw [if_pos hld, hop] at hi
      have e1 : (s.disp ++ [DMsg.plan (.client k) s.next p]).filterMap okOf = s.disp.filterMap okOf := by simp [okOf]
      have e2 : (s.disp ++ [DMsg.plan (.client k) s.next p]).filterMap (finOf s.sessions) = s.disp.filterMap (finOf s.sessions) := by simp [finOf]
      have et : ∀ t : Sys, t.disp = s.disp ++ [DMsg.plan (.client k) s.next p] → t.wal = s.wal → t.sessions = s.sessions → todo t B = todo s B := by
        intro t h1 h2 h3; unfold todo; rw [h1, h2, h3, e2]
      have et' := et { s with open' := set s.open' (.client k) (some (s.next, p)), next := s.next + 1, disp := s.disp ++ [.plan (.client k) s.next p] } rfl rfl rfl
      refine ⟨hi, h.cat, h.live, h.log, e1.trans h.oks, h.held, h.seen, h.logged, h.queued, ?_, ?_, h.exs, h.ses, ?_, ?_, ?_⟩
      · intro sid ok hm
        rcases List.mem_append.mp hm with hm | hm
        · exact h.fins sid ok hm
        · exact absurd (List.mem_singleton.mp hm) (by simp)
      · intro sid n q hm
        rcases List.mem_append.mp hm with hm | hm
        · exact h.news sid n q hm
        · have := List.mem_singleton.mp hm
          injection this with _ _ this
          rw [this]; exact hp
      · rw [et']; exact h.mem
      · rw [et']; exact h.cmds
      · rw [et']; exact h.clear
  · exact h

/-- Taking a request. -/
theorem Mid.plan {s0 s : Sys} {A : List Rec} {B : List (Sid × Rec)} (h : Mid s0 s A B) (hh : Home s0) {sid : Sid} {n : Nat} {p : Plan} {ms : List DMsg}
    (hd : s.disp = .plan sid n p :: ms) : Mid s0 (dispStep s) A B := by
  have hi := h.inv.disp
  obtain ⟨ht, hf⟩ := h.inv.take hd
  have hmem : DMsg.plan sid n p ∈ s.disp := by rw [hd]; exact List.mem_cons_self
  obtain ⟨⟨k, hk⟩, hopen, hnone⟩ := h.inv.fresh sid n p hmem
  have hopen : s.open' sid = some (n, p) := hopen
  have hnone : s.sessions sid = none := hnone
  have hp := h.news sid n p hmem
  obtain ⟨c, hc⟩ := simple_coll hp
  have hsub : ∀ m ∈ ms, m ∈ s.disp := fun m hm => by rw [hd]; exact List.mem_cons_of_mem _ hm
  have hms : ∀ m ∈ ms, m.sid ≠ sid := fun m hm e => by
    have hx : m.sid ∈ (view { s with disp := ms }).flight := sid_mem (v := view { s with disp := ms }) hm
    rw [e] at hx
    exact hf hx
  have hoks : ms.filterMap okOf = B.map fun b => (b.1, b.2.id) := by rw [← h.oks, hd]; rfl
  have hfin : s.disp.filterMap (finOf s.sessions) = ms.filterMap (finOf s.sessions) := by rw [hd]; rfl
  have hstep : dispStep s = execPlan { s with disp := ms } sid ⟨n, p, false⟩ := by unfold dispStep; rw [hd]
  have hmk : makeSession { s with disp := ms } sid ⟨n, p, false⟩ = { s with disp := ms, sessions := set s.sessions sid (some ⟨n, p, false⟩) } := by
    unfold makeSession; rw [show ({ s with disp := ms } : Sys).sessions sid = none from hnone]
  cases ha : admit s.cat p with
  | false =>
    have e : dispStep s = { s with disp := ms, open' := set s.open' sid none, answers := (n, p, false) :: s.answers } := by
      rw [hstep]
      unfold execPlan
      rw [hmk]
      show (if admit s.cat p then _ else _) = _
      rw [if_neg (by rw [ha]; simp)]
      unfold finishPlan
      rw [show ({ s with disp := ms, sessions := set s.sessions sid (some ⟨n, p, false⟩) } : Sys).sessions sid = some ⟨n, p, false⟩ from set_same _ _ _]
      show done _ sid ⟨n, p, false⟩ false = _
      unfold done reply
      simp only [hopen]
      rw [set_set, set_self _ _ _ hnone]
      rfl
    rw [e] at hi ⊢
    have et : ∀ t : Sys, t.disp = ms → t.wal = s.wal → t.sessions = s.sessions → todo t B = todo s B := by
      intro t h1 h2 h3; unfold todo; rw [h1, h2, h3, hfin]
    have et' := et { s with disp := ms, open' := set s.open' sid none, answers := (n, p, false) :: s.answers } rfl rfl rfl
    refine ⟨hi, h.cat, h.live, h.log, hoks, h.held, h.seen, h.logged, h.queued, fun x ok hx => h.fins x ok (hsub _ hx), fun x a b hx => h.news x a b (hsub _ hx), h.exs, h.ses,
      ?_, ?_, ?_⟩
    · rw [et']; exact h.mem
    · rw [et']; exact h.cmds
    · rw [et']; exact h.clear
  | true =>
    have ha0 : admit s0.cat p = true := by rw [← h.cat]; exact ha
    have hcc : s0.cat.computes c = true := by rw [← simple_admit hp hc]; exact ha0
    obtain ⟨⟨g, l⟩, hg⟩ := Option.ne_none_iff_exists'.mp (hh.known c hcc)
    have hgs : ∃ l', s.mem c = some (g, l') := by rw [h.mem c, hg]; exact ⟨_, rfl⟩
    obtain ⟨l', hgs⟩ := hgs
    have e : dispStep s = { s with disp := ms, sessions := set s.sessions sid (some ⟨n, p, false⟩), exec := s.exec ++ [(sid, g, p)] } := by
      rw [hstep]
      unfold execPlan
      rw [hmk]
      show (if admit s.cat p then _ else _) = _
      rw [if_pos ha]
      cases p <;> first
        | (injection hc with hc; subst hc
           show toExec _ sid _ _ = _
           unfold toExec
           simp only [hgs])
        | exact absurd hp (by simp [Simple])
    rw [e] at hi ⊢
    have hoth : ∀ x, x ≠ sid → set s.sessions sid (some ⟨n, p, false⟩) x = s.sessions x := fun x hx => set_other _ _ _ _ hx
    have et : ∀ t : Sys, t.disp = ms → t.wal = s.wal → t.sessions = set s.sessions sid (some ⟨n, p, false⟩) → todo t B = todo s B := by
      intro t h1 h2 h3
      unfold todo
      rw [h1, h2, h3, hfin, finOf_congr (fun m hm => hoth _ (hms m hm))]
    have et' := et { s with disp := ms, sessions := set s.sessions sid (some ⟨n, p, false⟩), exec := s.exec ++ [(sid, g, p)] } rfl rfl rfl
    refine ⟨hi, h.cat, h.live, h.log, hoks, ?_, h.seen, h.logged, h.queued, ?_, fun x a b hx => h.news x a b (hsub _ hx), ?_, ?_, ?_, ?_, ?_⟩
    · intro b hb
      have hne : b.1 ≠ sid := fun e => by have := h.held b hb; rw [e, hnone] at this; exact absurd this (by simp)
      exact (hoth _ hne).trans (h.held b hb)
    · intro x ok hx
      obtain ⟨a, n', p', b⟩ := h.fins x ok (hsub _ hx)
      have hne : x ≠ sid := hms _ hx
      exact ⟨a, n', p', (hoth _ hne).trans b⟩
    · intro x g' q hx
      rcases List.mem_append.mp hx with hx | hx
      · obtain ⟨n', c', l'', a, b⟩ := h.exs x g' q hx
        have hne : x ≠ sid := fun e => by rw [e, hnone] at a; exact absurd a (by simp)
        exact ⟨n', c', l'', (hoth _ hne).trans a, b⟩
      · have := List.mem_singleton.mp hx
        injection this with h1 h2
        injection h2 with h2 h3
        subst h1; subst h2; subst h3
        exact ⟨n, c, l, set_same _ _ _, hc, hg⟩
    · intro x n' q hx
      by_cases e : x = sid
      · subst e
        have : some ⟨n, p, false⟩ = some (⟨n', q, false⟩ : Ses) := (set_same s.sessions x (some ⟨n, p, false⟩)).symm.trans hx
        injection this with this
        injection this with _ this
        subst this
        exact ⟨hp, ha0⟩
      · exact h.ses x n' q ((hoth _ e).symm.trans hx)
    · rw [et']; exact h.mem
    · rw [et']; exact h.cmds
    · rw [et']; exact h.clear

/-- Taking a finished plan. -/
theorem Mid.finish {s0 s : Sys} {A : List Rec} {B : List (Sid × Rec)} (h : Mid s0 s A B) {sid : Sid} {ok : Bool} {ms : List DMsg}
    (hd : s.disp = .finish sid ok :: ms) : Mid s0 (dispStep s) A B := by
  have hi := h.inv.disp
  obtain ⟨ht, hf⟩ := h.inv.take hd
  have hmem : DMsg.finish sid ok ∈ s.disp := by rw [hd]; exact List.mem_cons_self
  obtain ⟨hok, n, p, hs⟩ := h.fins sid ok hmem
  subst hok
  obtain ⟨hp, ha⟩ := h.ses sid n p hs
  have hopen : s.open' sid = some (n, p) := (h.inv.client sid _ hs rfl).2
  have hsub : ∀ m ∈ ms, m ∈ s.disp := fun m hm => by rw [hd]; exact List.mem_cons_of_mem _ hm
  have hms : ∀ m ∈ ms, m.sid ≠ sid := fun m hm e => by
    have hx : m.sid ∈ (view { s with disp := ms }).flight := sid_mem (v := view { s with disp := ms }) hm
    rw [e] at hx
    exact hf hx
  have hoks : ms.filterMap okOf = B.map fun b => (b.1, b.2.id) := by rw [← h.oks, hd]; rfl
  have hstep : dispStep s = finishPlan { s with disp := ms } sid true := by unfold dispStep; rw [hd]
  have hfin : s.disp.filterMap (finOf s.sessions) = (if p.writes then [(sid, p)] else []) ++ ms.filterMap (finOf s.sessions) := by
    rw [hd, List.filterMap_cons]
    have : finOf s.sessions (.finish sid true) = if p.writes then some (sid, p) else none := by
      unfold finOf; simp only; rw [hs]
    rw [this]
    cases p.writes <;> rfl
  cases hw : p.writes with
  | true =>
    have e : dispStep s = { s with disp := ms, wal := s.wal ++ [(sid, n, p)] } := by
      rw [hstep]
      exact finish_write { s with disp := ms } sid n p hs hw
    rw [e] at hi ⊢
    rw [hw, if_pos rfl] at hfin
    have et : ∀ t : Sys, t.disp = ms → t.wal = s.wal ++ [(sid, n, p)] → t.sessions = s.sessions → todo t B = todo s B := by
      intro t h1 h2 h3; unfold todo; rw [h1, h2, h3, hfin]; simp
    have et' := et { s with disp := ms, wal := s.wal ++ [(sid, n, p)] } rfl rfl rfl
    refine ⟨hi, h.cat, h.live, h.log, hoks, h.held, h.seen, h.logged, ?_, fun x a hx => h.fins x a (hsub _ hx), fun x a b hx => h.news x a b (hsub _ hx), h.exs, h.ses,
      ?_, ?_, ?_⟩
    · intro x hx
      rcases List.mem_append.mp hx with hx | hx
      · exact h.queued x hx
      · rw [List.mem_singleton.mp hx]; exact hw
    · rw [et']; exact h.mem
    · rw [et']; exact h.cmds
    · rw [et']; exact h.clear
  | false =>
    have e : dispStep s = { s with disp := ms, open' := set s.open' sid none, answers := (n, p, true) :: s.answers, sessions := set s.sessions sid none } := by
      rw [hstep]
      exact finish_find { s with disp := ms } sid n p hs hp hw hopen
    rw [e] at hi ⊢
    rw [hw, if_neg (by simp), List.nil_append] at hfin
    have hoth : ∀ x, x ≠ sid → set s.sessions sid none x = s.sessions x := fun x hx => set_other _ _ _ _ hx
    have et : ∀ t : Sys, t.disp = ms → t.wal = s.wal → t.sessions = set s.sessions sid none → todo t B = todo s B := by
      intro t h1 h2 h3
      unfold todo
      rw [h1, h2, h3, hfin, finOf_congr (fun m hm => hoth _ (hms m hm))]
    have et' := et { s with disp := ms, open' := set s.open' sid none, answers := (n, p, true) :: s.answers, sessions := set s.sessions sid none } rfl rfl rfl
    have hcl : ∀ x, x ∈ (view { s with disp := ms }).flight → x ≠ sid := fun x hx e => hf (e ▸ hx)
    refine ⟨hi, h.cat, h.live, h.log, hoks, ?_, h.seen, h.logged, h.queued, ?_, fun x a b hx => h.news x a b (hsub _ hx), ?_, ?_, ?_, ?_, ?_⟩
    · intro b hb
      have hne : b.1 ≠ sid := by
        intro e
        have := h.held b hb
        rw [e, hs] at this
        have hw' := h.logged b hb
        injection this with this
        injection this with _ this
        rw [← this, hw] at hw'
        exact absurd hw' (by simp)
      exact (hoth _ hne).trans (h.held b hb)
    · intro x a hx
      obtain ⟨b, n', p', c⟩ := h.fins x a (hsub _ hx)
      exact ⟨b, n', p', (hoth _ (hms _ hx)).trans c⟩
    · intro x g' q hx
      obtain ⟨n', c', l'', a, b⟩ := h.exs x g' q hx
      have hne : x ≠ sid := hcl x (exec_mem (v := view { s with disp := ms }) (List.mem_map.mpr ⟨_, hx, rfl⟩))
      exact ⟨n', c', l'', (hoth _ hne).trans a, b⟩
    · intro x n' q hx
      exact h.ses x n' q (set_none hx).2
    · rw [et']; exact h.mem
    · rw [et']; exact h.cmds
    · rw [et']; exact h.clear

/-- The last acknowledgement of the log: the next record is seen, and its commands go to the disk agent. -/
theorem Mid.walOk {s0 s : Sys} {A : List Rec} {B : List (Sid × Rec)} (h : Mid s0 s A B) {sid : Sid} {id : Nat} {ms : List DMsg}
    (hd : s.disp = .walOk sid id :: ms) : ∃ r B', B = (sid, r) :: B' ∧ Mid s0 (dispStep s) (A ++ [r]) B' ∧
      (dispStep s).agent = s.agent ++ (cmdOf (plays (docs s0) (A.map Rec.plan)) r.plan ++ [.fixWal r.id]) ∧ (dispStep s).disk = s.disk := by
  have hi := h.inv.disp
  obtain ⟨ht, hf⟩ := h.inv.take hd
  have hsub : ∀ m ∈ ms, m ∈ s.disp := fun m hm => by rw [hd]; exact List.mem_cons_of_mem _ hm
  have hms : ∀ m ∈ ms, m.sid ≠ sid := fun m hm e => by
    have hx : m.sid ∈ (view { s with disp := ms }).flight := sid_mem (v := view { s with disp := ms }) hm
    rw [e] at hx
    exact hf hx
  have hoks := h.oks
  rw [hd] at hoks
  have hoks : (sid, id) :: ms.filterMap okOf = B.map fun b => (b.1, b.2.id) := hoks
  cases B with
  | nil => exact absurd hoks (by simp)
  | cons b B' =>
    obtain ⟨sb, r⟩ := b
    rw [List.map_cons] at hoks
    obtain ⟨h1, hoks'⟩ := List.cons.inj hoks
    injection h1 with h1 h2
    have h1 : sid = sb := h1
    have h2 : id = r.id := h2
    subst h1; subst h2
    refine ⟨r, B', rfl, ?_⟩
    have hs : s.sessions sid = some ⟨r.serial, r.plan, false⟩ := h.held (sid, r) List.mem_cons_self
    obtain ⟨hp, ha⟩ := h.ses sid _ _ hs
    have hw := h.logged (sid, r) List.mem_cons_self
    have hopen : s.open' sid = some (r.serial, r.plan) := (h.inv.client sid _ hs rfl).2
    have hstep : dispStep s = walSuccess { s with disp := ms } sid r.id := by unfold dispStep; rw [hd]
    have hup : updateCat { s with disp := ms } r.plan = { s with disp := ms } := by
      cases hrp : r.plan with
      | insert c ds =>
        show (if s.cat.computes c then _ else _) = _
        rw [h.cat, if_pos (by rw [hrp] at ha; exact ha)]
      | delete c q => rfl
      | find c => rfl
      | _ => rw [hrp] at hp; exact absurd hp (by simp [Simple])
    have e : dispStep s = acked { s with disp := ms } sid r.id r.serial r.plan := by
      rw [hstep]
      exact wal_acked { s with disp := ms } sid r.id r.serial r.plan hs hup h.live hopen
    have hcmd : s.cmds sid = cmdOf (plays (docs s0) (A.map Rec.plan)) r.plan := h.cmds.1
    have hoth : ∀ x, x ≠ sid → set s.sessions sid none x = s.sessions x := fun x hx => set_other _ _ _ _ hx
    have hfin : s.disp.filterMap (finOf s.sessions) = ms.filterMap (finOf s.sessions) := by rw [hd]; rfl
    have etail : ∀ t : Sys, t.disp = ms → t.wal = s.wal → t.sessions = set s.sessions sid none → todo s ((sid, r) :: B') = (sid, r.plan) :: todo t B' := by
      intro t h1 h2 h3
      unfold todo
      rw [h1, h2, h3, hfin, finOf_congr (fun m hm => hoth _ (hms m hm))]
      rfl
    have et := etail (acked { s with disp := ms } sid r.id r.serial r.plan) rfl rfl rfl
    have hcl : ∀ x, x ∈ (view { s with disp := ms }).flight → x ≠ sid := fun x hx e => hf (e ▸ hx)
    have hB : ∀ b ∈ B', b.1 ≠ sid := by
      intro b hb
      have : (b.1, b.2.id) ∈ ms.filterMap okOf := by rw [hoks']; exact List.mem_map.mpr ⟨b, hb, rfl⟩
      obtain ⟨m, hm, hmo⟩ := List.mem_filterMap.mp this
      cases m with
      | walOk x i =>
        have hmo : (x, i) = (b.1, b.2.id) := Option.some.inj hmo
        injection hmo with h1 _
        have := hms _ hm
        rw [← h1]; exact this
      | _ => exact absurd hmo (by simp [okOf])
    have htodo : ∀ t : Sys, t.disp = ms → t.wal = s.wal → t.sessions = set s.sessions sid none → ∀ x ∈ todo t B', x.1 ≠ sid := by
      intro t h1 h2 h3 x hx
      have := todo_flight (s := t) (B := B') (by rw [h1]; exact hoks') x.1 (List.mem_map_of_mem hx)
      rw [h1, h2] at this
      rcases this with h | h
      · obtain ⟨m, hm, e⟩ := List.mem_map.mp h
        rw [← e]; exact hms m hm
      · exact hcl _ (List.mem_append_right _ (List.mem_append_right _ h))
    have htodo' := htodo (acked { s with disp := ms } sid r.id r.serial r.plan) rfl rfl rfl
    rw [e] at hi ⊢
    refine ⟨⟨hi, h.cat, h.live, ?_, hoks', ?_, ?_, fun b hb => h.logged b (List.mem_cons_of_mem _ hb), h.queued, ?_, fun x a b hx => h.news x a b (hsub _ hx), ?_, ?_, ?_, ?_, ?_⟩, ?_, rfl⟩
    · show s.log = _
      rw [h.log]
      simp
    · intro b hb
      exact (hoth _ (hB b hb)).trans (h.held b (List.mem_cons_of_mem _ hb))
    · intro x hx
      rcases List.mem_append.mp hx with hx | hx
      · exact h.seen x hx
      · rw [List.mem_singleton.mp hx]; exact ⟨hp, hw, ha⟩
    · intro x a hx
      obtain ⟨b, n', p', c⟩ := h.fins x a (hsub _ hx)
      exact ⟨b, n', p', (hoth _ (hms _ hx)).trans c⟩
    · intro x g' q hx
      obtain ⟨n', c', l'', a, b⟩ := h.exs x g' q hx
      have hne : x ≠ sid := hcl x (exec_mem (v := view { s with disp := ms }) (List.mem_map.mpr ⟨_, hx, rfl⟩))
      exact ⟨n', c', l'', (hoth _ hne).trans a, b⟩
    · intro x n' q hx
      exact h.ses x n' q (set_none hx).2
    · intro c
      have := h.mem c
      rw [et] at this
      show s.mem c = _
      rw [this]
      simp
    · have := h.cmds
      rw [et] at this
      rw [List.map_append]
      show Owe (set s.cmds sid []) (plays (docs s0) (A.map Rec.plan ++ [r.plan])) _
      rw [plays_snoc]
      exact owe_congr _ s.cmds _ _ (fun x hx => set_other _ _ _ _ (htodo' x hx)) this.2
    · intro k hk
      show set s.cmds sid [] (.client k) = []
      by_cases ek : Sid.client k = sid
      · rw [ek]; exact set_same _ _ _
      · rw [set_other _ _ _ _ ek]
        refine h.clear k ?_
        rw [et, List.map_cons, List.mem_cons]
        rintro (h | h)
        · exact ek h
        · exact hk h
    · show s.agent ++ s.cmds sid ++ [.fixWal r.id] = _
      rw [← hcmd, List.append_assoc]

/-- The node after the executor has run a plan. -/
def ran (s : Sys) (ms : List (Sid × Nat × Plan)) (sid : Sid) (g : Nat) (p : Plan) (c : Coll) (l : List Doc) : Sys :=
  { s with exec := ms, mem := set s.mem c (some (g, (runPlan l p).1)), cmds := set s.cmds sid (s.cmds sid ++ (runPlan l p).2), disp := s.disp ++ [.finish sid true] }

/-- The executor runs a plan. -/
theorem Mid.exec {s0 s : Sys} {A : List Rec} {B : List (Sid × Rec)} (h : Mid s0 s A B) : Mid s0 (execStep s) A B := by
  have hi := h.inv.execStep
  cases he : s.exec with
  | nil =>
    have : execStep s = s := by unfold execStep; rw [he]
    rw [this]; exact h
  | cons m ms =>
    obtain ⟨sid, g, p⟩ := m
    obtain ⟨n, c, l, hs, hc, hg⟩ := h.exs sid g p (by rw [he]; exact List.mem_cons_self)
    obtain ⟨hp, ha⟩ := h.ses sid n p hs
    obtain ⟨⟨k, hk⟩, _⟩ := h.inv.client sid _ hs rfl
    have hm : s.mem c = some (g, plays (docs s0) (A.map Rec.plan ++ (todo s B).map Prod.snd) c) := by rw [h.mem c, hg]; rfl
    have hmsub : ∀ x ∈ ms, x ∈ s.exec := fun x hx => by rw [he]; exact List.mem_cons_of_mem _ hx
    have hnt : sid ∉ (todo s B).map Prod.fst := by
      intro hx
      have hnd := h.inv.nodup
      have hex : (view s).exec = sid :: ms.map Prod.fst := by show s.exec.map Prod.fst = _; rw [he]; rfl
      unfold View.flight at hnd
      rw [hex] at hnd
      rcases todo_flight h.oks sid hx with hx | hx
      · exact (List.nodup_append.mp hnd).2.2 sid hx sid (by simp) rfl
      · have := (List.nodup_append.mp hnd).2.1
        exact (List.nodup_append.mp this).2.2 sid List.mem_cons_self sid hx rfl
    have hcl : s.cmds sid = [] := by rw [hk]; exact h.clear k (by rw [← hk]; exact hnt)
    have e : execStep s = (ran s ms sid g p c (plays (docs s0) (A.map Rec.plan ++ (todo s B).map Prod.snd) c)) := by
      unfold execStep
      rw [he]
      simp only [hc, hm]
      rw [if_pos trivial]
      rfl
    rw [e] at hi ⊢
    have hok : (s.disp ++ [DMsg.finish sid true]).filterMap okOf = B.map fun b => (b.1, b.2.id) := by rw [← h.oks]; simp [okOf]
    have hfin : (s.disp ++ [DMsg.finish sid true]).filterMap (finOf s.sessions) = s.disp.filterMap (finOf s.sessions) ++ if p.writes then [(sid, p)] else [] := by
      rw [List.filterMap_append]
      congr 1
      have : finOf s.sessions (.finish sid true) = if p.writes then some (sid, p) else none := by
        unfold finOf; simp only; rw [hs]
      rw [List.filterMap_cons, this]
      cases p.writes <;> rfl
    have et : ∀ t : Sys, t.disp = s.disp ++ [.finish sid true] → t.wal = s.wal → t.sessions = s.sessions → todo t B = todo s B ++ if p.writes then [(sid, p)] else [] := by
      intro t h1 h2 h3; unfold todo; rw [h1, h2, h3, hfin]; simp
    have et' := et (ran s ms sid g p c (plays (docs s0) (A.map Rec.plan ++ (todo s B).map Prod.snd) c)) rfl rfl rfl
    refine ⟨hi, h.cat, h.live, h.log, hok, h.held, h.seen, h.logged, h.queued, ?_, ?_, fun x a b hx => h.exs x a b (hmsub _ hx), h.ses, ?_, ?_, ?_⟩
    · intro x a hx
      rcases List.mem_append.mp hx with hx | hx
      · exact h.fins x a hx
      · have := List.mem_singleton.mp hx
        injection this with h1 h2
        subst h1; subst h2
        exact ⟨rfl, n, p, hs⟩
    · intro x a b hx
      rcases List.mem_append.mp hx with hx | hx
      · exact h.news x a b hx
      · exact absurd (List.mem_singleton.mp hx) (by simp)
    · intro y
      rw [et', List.map_append, ← List.append_assoc]
      show set s.mem c _ y = _
      cases hw : p.writes with
      | false =>
        have hrp : (runPlan (plays (docs s0) (A.map Rec.plan ++ (todo s B).map Prod.snd) c) p).1 = plays (docs s0) (A.map Rec.plan ++ (todo s B).map Prod.snd) c := by
          cases p <;> first | rfl | exact absurd hw (by simp [Plan.writes])
        rw [hrp, set_self _ _ _ hm, if_neg (by simp), List.map_nil, List.append_nil]
        exact h.mem y
      | true =>
        rw [if_pos rfl]
        show _ = (s0.mem y).map fun v => (v.1, plays (docs s0) (A.map Rec.plan ++ (todo s B).map Prod.snd ++ [p]) y)
        rw [plays_snoc]
        have hplay : ∀ D : Docs, play D p = set D c (runPlan (D c) p).1 := fun D => by unfold play; rw [hc]
        rw [hplay]
        by_cases ey : y = c
        · subst ey
          rw [set_same, hg]
          show _ = some (g, set _ _ _ _)
          rw [set_same]
        · rw [set_other _ _ _ _ ey, h.mem y]
          congr 1
          funext v
          rw [set_other _ _ _ _ ey]
    · rw [et']
      show Owe (set s.cmds sid (s.cmds sid ++ (runPlan (plays (docs s0) (A.map Rec.plan ++ (todo s B).map Prod.snd) c) p).2)) _ _
      have base : Owe (set s.cmds sid (s.cmds sid ++ (runPlan (plays (docs s0) (A.map Rec.plan ++ (todo s B).map Prod.snd) c) p).2))
          (plays (docs s0) (A.map Rec.plan)) (todo s B) :=
        owe_congr _ s.cmds _ _ (fun x hx => set_other _ _ _ _ (fun e => hnt (e ▸ List.mem_map_of_mem hx))) h.cmds
      cases hw : p.writes with
      | false => rw [if_neg (by simp), List.append_nil]; exact base
      | true =>
        rw [if_pos rfl]
        refine owe_snoc _ _ _ _ base ?_
        rw [← plays_append]
        show set _ _ _ _ = _
        rw [set_same, hcl, List.nil_append]
        unfold cmdOf
        rw [hc]
    · intro j hj
      rw [et', List.map_append, List.mem_append, not_or] at hj
      show set s.cmds sid _ (.client j) = []
      by_cases ej : Sid.client j = sid
      · rw [ej, set_same, hcl, List.nil_append]
        cases hw : p.writes with
        | true =>
          rw [hw, if_pos rfl] at hj
          exact absurd (by rw [ej]; simp) hj.2
        | false => cases p <;> first | rfl | exact absurd hw (by simp [Plan.writes])
      · rw [set_other _ _ _ _ ej]
        exact h.clear j hj.1

/-- The log worker writes a record. -/
theorem Mid.wal {s0 s : Sys} {A : List Rec} {B : List (Sid × Rec)} (h : Mid s0 s A B) : ∃ B', Mid s0 (walStep s) A B' := by
  have hi := h.inv.walStep
  cases hw : s.wal with
  | nil =>
    have : walStep s = s := by unfold walStep; rw [hw]
    rw [this]; exact ⟨B, h⟩
  | cons m ms =>
    obtain ⟨sid, n, p⟩ := m
    have hs : s.sessions sid = some ⟨n, p, false⟩ := h.inv.toLog sid n p (by show _ ∈ s.wal; rw [hw]; exact List.mem_cons_self)
    have e : walStep s = { s with wal := ms, log := s.log ++ [⟨lastId s.log + 1, n, p⟩], disp := s.disp ++ [.walOk sid (lastId s.log + 1)] } := by
      unfold walStep; rw [hw]
    rw [e] at hi ⊢
    refine ⟨B ++ [(sid, ⟨lastId s.log + 1, n, p⟩)], ?_⟩
    have hfin : (s.disp ++ [DMsg.walOk sid (lastId s.log + 1)]).filterMap (finOf s.sessions) = s.disp.filterMap (finOf s.sessions) := by simp [finOf]
    have et : ∀ t : Sys, t.disp = s.disp ++ [.walOk sid (lastId s.log + 1)] → t.wal = ms → t.sessions = s.sessions →
        todo t (B ++ [(sid, ⟨lastId s.log + 1, n, p⟩)]) = todo s B := by
      intro t h1 h2 h3; unfold todo; rw [h1, h2, h3, hfin, hw]; simp
    have et' := et { s with wal := ms, log := s.log ++ [⟨lastId s.log + 1, n, p⟩], disp := s.disp ++ [.walOk sid (lastId s.log + 1)] } rfl rfl rfl
    refine ⟨hi, h.cat, h.live, ?_, ?_, ?_, h.seen, ?_, ?_, ?_, ?_, h.exs, h.ses, ?_, ?_, ?_⟩
    · show s.log ++ _ = _
      rw [h.log]; simp
    · rw [List.map_append, ← h.oks]; simp [okOf]
    · intro b hb
      rcases List.mem_append.mp hb with hb | hb
      · exact h.held b hb
      · rw [List.mem_singleton.mp hb]; exact hs
    · intro b hb
      rcases List.mem_append.mp hb with hb | hb
      · exact h.logged b hb
      · rw [List.mem_singleton.mp hb]; exact h.queued (sid, n, p) (by rw [hw]; exact List.mem_cons_self)
    · intro x hx
      exact h.queued x (by rw [hw]; exact List.mem_cons_of_mem _ hx)
    · intro x a hx
      rcases List.mem_append.mp hx with hx | hx
      · exact h.fins x a hx
      · exact absurd (List.mem_singleton.mp hx) (by simp)
    · intro x a b hx
      rcases List.mem_append.mp hx with hx | hx
      · exact h.news x a b hx
      · exact absurd (List.mem_singleton.mp hx) (by simp)
    · rw [et']; exact h.mem
    · rw [et']; exact h.cmds
    · rw [et']; exact h.clear

end Verif.Node
