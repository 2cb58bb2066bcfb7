import Verif.Node.LogProps
/-!
What one request does when nothing else is under way.
-/
namespace Verif.Node

theorem set_self {K V : Type} [DecidableEq K] (m : K → V) (k : K) (v : V) (h : m k = v) : set m k v = m := by
  funext x
  unfold set
  split
  · rename_i e; rw [e, h]
  · rfl

theorem set_set {K V : Type} [DecidableEq K] (m : K → V) (k : K) (v w : V) : set (set m k v) k w = set m k w := by
  funext x
  unfold set
  split <;> rfl

/-- Nothing is under way but commands for the disk, and every collection of the catalog is in memory. -/
structure Ready (s : Sys) : Prop where
  disp : s.disp = []
  exec : s.exec = []
  wal : s.wal = []
  live : s.dead = false
  loaded : s.loading = 0
  idle : ∀ k, s.open' (.client k) = none
  free : ∀ k, s.sessions (.client k) = none
  clear : ∀ k, s.cmds (.client k) = []
  known : ∀ c, s.cat.computes c = true → s.mem c ≠ none

/-- The catalog after a request. -/
def catAfter (c : Cat) : Plan → Cat
  | .createDb d => c.createNs d
  | .dropDb d => c.dropNs d
  | .createColl x => c.createTable x
  | .dropColl x => c.dropTable x
  | _ => c

/-- The answer, and nothing else. -/
def note (s : Sys) (p : Plan) (ok : Bool) : Sys := { s with answers := (s.next, p, ok) :: s.answers, next := s.next + 1 }

/-- The record, and the commands for the disk. -/
def enter (s : Sys) (n : Nat) (p : Plan) (cs : List Cmd) : Sys :=
  { s with log := s.log ++ [⟨lastId s.log + 1, n, p⟩], agent := s.agent ++ cs ++ [.fixWal (lastId s.log + 1)] }

theorem ask_refused {s : Sys} (h : Ready s) (k : Nat) (p : Plan) (ha : admit s.cat p = false) : run s (ask k p) = note s p false := by
  obtain ⟨h1, h2, h3, h4, h5, h6, h7, h8, h9⟩ := h
  obtain ⟨disp, exec, wal, agent, sessions, cat, mem, gen, cmds, lastWal, loading, log, disk, open', answers, next, dead⟩ := s
  simp only at h1 h2 h3 h4 h5 h6 h7 h8 ha
  subst h1; subst h2; subst h3; subst h4; subst h5
  simp [run, ask, step, request, dispStep, execStep, walStep, execPlan, makeSession, finishPlan, done, reply, note, h6, h7, ha, set_same, set_set]
  exact ⟨set_self _ _ _ (h7 k), set_self _ _ _ (h6 k)⟩

theorem ask_createDb {s : Sys} (h : Ready s) (k d : Nat) (ha : admit s.cat (.createDb d) = true) :
    run s (ask k (.createDb d)) = { enter (note s (.createDb d) true) s.next (.createDb d) [.appendDb d] with cat := s.cat.createNs d } := by
  obtain ⟨h1, h2, h3, h4, h5, h6, h7, h8, h9⟩ := h
  obtain ⟨disp, exec, wal, agent, sessions, cat, mem, gen, cmds, lastWal, loading, log, disk, open', answers, next, dead⟩ := s
  simp only at h1 h2 h3 h4 h5 h6 h7 h8 ha
  subst h1; subst h2; subst h3; subst h4; subst h5
  simp [run, ask, step, request, dispStep, execStep, walStep, execPlan, makeSession, memory, post, logged, addCmd, walSuccess, updateCat, flush, finishPlan, done, reply, note, enter, h6, h7, h8, ha, set_same, set_set]
  exact ⟨set_self _ _ _ (h7 k), set_self _ _ _ (h8 k), set_self _ _ _ (h6 k)⟩

theorem ask_dropDb {s : Sys} (h : Ready s) (k d : Nat) (ha : admit s.cat (.dropDb d) = true) :
    run s (ask k (.dropDb d)) = { note s (.dropDb d) true with cat := s.cat.dropNs d } := by
  obtain ⟨h1, h2, h3, h4, h5, h6, h7, h8, h9⟩ := h
  obtain ⟨disp, exec, wal, agent, sessions, cat, mem, gen, cmds, lastWal, loading, log, disk, open', answers, next, dead⟩ := s
  simp only at h1 h2 h3 h4 h5 h6 h7 h8 ha
  subst h1; subst h2; subst h3; subst h4; subst h5
  simp [run, ask, step, request, dispStep, execStep, walStep, execPlan, makeSession, memory, post, finishPlan, done, reply, note, h6, h7, ha, set_same, set_set]
  exact ⟨set_self _ _ _ (h7 k), set_self _ _ _ (h6 k)⟩

theorem ask_createColl {s : Sys} (h : Ready s) (k : Nat) (c : Coll) (ha : admit s.cat (.createColl c) = true) :
    run s (ask k (.createColl c)) = { enter (note s (.createColl c) true) s.next (.createColl c) [.appendColl c] with
      cat := s.cat.createTable c,
      mem := if s.mem c = none then set s.mem c (some (s.gen, [])) else s.mem,
      gen := if s.mem c = none then s.gen + 1 else s.gen } := by
  obtain ⟨h1, h2, h3, h4, h5, h6, h7, h8, h9⟩ := h
  obtain ⟨disp, exec, wal, agent, sessions, cat, mem, gen, cmds, lastWal, loading, log, disk, open', answers, next, dead⟩ := s
  simp only at h1 h2 h3 h4 h5 h6 h7 h8 ha
  subst h1; subst h2; subst h3; subst h4; subst h5
  cases hm : mem c with
  | none =>
    simp [run, ask, step, request, dispStep, execStep, walStep, execPlan, makeSession, memory, post, logged, addCmd, walSuccess, updateCat, flush, finishPlan, done, reply, note, enter, h6, h7, h8, ha, hm, set_same, set_set]
    exact ⟨set_self _ _ _ (h7 k), set_self _ _ _ (h8 k), set_self _ _ _ (h6 k)⟩
  | some x =>
    simp [run, ask, step, request, dispStep, execStep, walStep, execPlan, makeSession, memory, post, logged, addCmd, walSuccess, updateCat, flush, finishPlan, done, reply, note, enter, h6, h7, h8, ha, hm, set_same, set_set]
    exact ⟨set_self _ _ _ (h7 k), set_self _ _ _ (h8 k), set_self _ _ _ (h6 k)⟩

theorem ask_dropColl {s : Sys} (h : Ready s) (k : Nat) (c : Coll) (ha : admit s.cat (.dropColl c) = true) :
    run s (ask k (.dropColl c)) = { enter (note s (.dropColl c) true) s.next (.dropColl c) [.removeColl c] with
      cat := s.cat.dropTable c, mem := set s.mem c none } := by
  have hm := h.known c ha
  obtain ⟨h1, h2, h3, h4, h5, h6, h7, h8, h9⟩ := h
  obtain ⟨disp, exec, wal, agent, sessions, cat, mem, gen, cmds, lastWal, loading, log, disk, open', answers, next, dead⟩ := s
  simp only at h1 h2 h3 h4 h5 h6 h7 h8 ha hm
  subst h1; subst h2; subst h3; subst h4; subst h5
  cases hm' : mem c with
  | none => exact absurd hm' hm
  | some x =>
    simp [run, ask, step, request, dispStep, execStep, walStep, execPlan, makeSession, memory, post, logged, addCmd, walSuccess, updateCat, flush, finishPlan, done, reply, note, enter, h6, h7, h8, ha, hm', set_same, set_set]
    exact ⟨set_self _ _ _ (h7 k), set_self _ _ _ (h8 k), set_self _ _ _ (h6 k)⟩

/-- The request is an insert, a delete or an update. -/
def Plan.writes : Plan → Bool
  | .insert _ _ => true
  | .delete _ _ => true
  | .update _ _ => true
  | _ => false

theorem ask_write {s : Sys} (h : Ready s) (k : Nat) (p : Plan) (c : Coll) (hp : p.writes = true) (hc : p.coll = some c) (ha : admit s.cat p = true)
    (g : Nat) (l : List Doc) (hm : s.mem c = some (g, l)) :
    run s (ask k p) = { enter (note s p true) s.next p (runPlan l p).2 with mem := set s.mem c (some (g, (runPlan l p).1)) } := by
  obtain ⟨h1, h2, h3, h4, h5, h6, h7, h8, h9⟩ := h
  obtain ⟨disp, exec, wal, agent, sessions, cat, mem, gen, cmds, lastWal, loading, log, disk, open', answers, next, dead⟩ := s
  simp only at h1 h2 h3 h4 h5 h6 h7 h8 ha hm
  subst h1; subst h2; subst h3; subst h4; subst h5
  cases p with
  | insert c' ds =>
    injection hc with hc; subst hc
    have ha' : cat.computes c' = true := ha
    simp [run, ask, step, request, dispStep, execStep, walStep, execPlan, makeSession, memory, toExec, post, logged, addCmd, walSuccess, updateCat, flush, finishPlan, done, reply, note, enter, h6, h7, h8, ha, ha', hm, set_same, set_set, Plan.coll]
    exact ⟨set_self _ _ _ (h7 k), set_self _ _ _ (h8 k), set_self _ _ _ (h6 k)⟩
  | delete c' ds =>
    injection hc with hc; subst hc
    simp [run, ask, step, request, dispStep, execStep, walStep, execPlan, makeSession, memory, toExec, post, logged, addCmd, walSuccess, updateCat, flush, finishPlan, done, reply, note, enter, h6, h7, h8, ha, hm, set_same, set_set, Plan.coll]
    exact ⟨set_self _ _ _ (h7 k), set_self _ _ _ (h8 k), set_self _ _ _ (h6 k)⟩
  | update c' ds =>
    injection hc with hc; subst hc
    simp [run, ask, step, request, dispStep, execStep, walStep, execPlan, makeSession, memory, toExec, post, logged, addCmd, walSuccess, updateCat, flush, finishPlan, done, reply, note, enter, h6, h7, h8, ha, hm, set_same, set_set, Plan.coll]
    exact ⟨set_self _ _ _ (h7 k), set_self _ _ _ (h8 k), set_self _ _ _ (h6 k)⟩
  | _ => exact absurd hp (by simp [Plan.writes])

theorem ask_find {s : Sys} (h : Ready s) (k : Nat) (c : Coll) (ha : admit s.cat (.find c) = true) :
    run s (ask k (.find c)) = note s (.find c) true := by
  have hm := h.known c ha
  obtain ⟨h1, h2, h3, h4, h5, h6, h7, h8, h9⟩ := h
  obtain ⟨disp, exec, wal, agent, sessions, cat, mem, gen, cmds, lastWal, loading, log, disk, open', answers, next, dead⟩ := s
  simp only at h1 h2 h3 h4 h5 h6 h7 h8 ha hm
  subst h1; subst h2; subst h3; subst h4; subst h5
  cases hm' : mem c with
  | none => exact absurd hm' hm
  | some x =>
    obtain ⟨g, l⟩ := x
    simp [run, ask, step, request, dispStep, execStep, walStep, execPlan, makeSession, memory, toExec, post, runPlan, finishPlan, done, reply, note, h6, h7, h8, ha, hm', set_same, set_set, Plan.coll]
    exact ⟨set_self _ _ _ (h7 k), set_self _ _ _ hm', set_self _ _ _ (h8 k), set_self _ _ _ (h6 k)⟩

end Verif.Node
