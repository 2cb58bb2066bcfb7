import Verif.Node.SeqLemmas
import Mathlib.Tactic.FinCases
/-!
C09 and C10: requests one after the other. Which are accepted, what a refused request changes, and what a collection created anew contains.
-/
namespace Verif.Node

/-- The catalog shows the databases and collections of the world. -/
structure Shows (s : Sys) (w : World) : Prop where
  dbs : s.cat.dbs = w.dbs
  colls : s.cat.colls = w.colls
  inside : ∀ c, w.colls c = true → w.dbs c.db = true

theorem Shows.computes {s : Sys} {w : World} (h : Shows s w) (c : Coll) : s.cat.computes c = w.colls c := by
  unfold Cat.computes
  rw [h.dbs, h.colls]
  have := h.inside c
  cases hc : w.colls c <;> simp_all

theorem admit_world {s : Sys} {w : World} (h : Shows s w) (p : Plan) : admit s.cat p = (w.ok p || w.misplaced p) := by
  cases p with
  | createDb d => show (!s.cat.dbs d) = _; rw [h.dbs]; simp [World.ok, World.misplaced]
  | dropDb d => show s.cat.dbs d = _; rw [h.dbs]; simp [World.ok, World.misplaced]
  | createColl c =>
    show (!s.cat.computes c) = ((w.dbs c.db && !w.colls c) || !w.dbs c.db)
    rw [h.computes]
    have := h.inside c
    cases hc : w.colls c <;> cases hd : w.dbs c.db <;> simp_all
  | dropColl c => show s.cat.computes c = _; rw [h.computes]; simp [World.ok, World.misplaced]
  | insert c _ => show s.cat.computes c = _; rw [h.computes]; simp [World.ok, World.misplaced]
  | delete c _ => show s.cat.computes c = _; rw [h.computes]; simp [World.ok, World.misplaced]
  | update c _ => show s.cat.computes c = _; rw [h.computes]; simp [World.ok, World.misplaced]
  | find c => show s.cat.computes c = _; rw [h.computes]; simp [World.ok, World.misplaced]

theorem ready_note {s : Sys} (h : Ready s) (p : Plan) (ok : Bool) : Ready (note s p ok) :=
  ⟨h.disp, h.exec, h.wal, h.live, h.loaded, h.idle, h.free, h.clear, h.known⟩

/-- Only memory, catalog, log, queue and disk differ. -/
theorem ready_of {s t : Sys} (h : Ready s) (e1 : t.disp = s.disp) (e2 : t.exec = s.exec) (e3 : t.wal = s.wal) (e4 : t.dead = s.dead)
    (e5 : t.loading = s.loading) (e6 : t.open' = s.open') (e7 : t.sessions = s.sessions) (e8 : t.cmds = s.cmds)
    (hk : ∀ c, t.cat.computes c = true → t.mem c ≠ none) : Ready t :=
  ⟨e1.trans h.disp, e2.trans h.exec, e3.trans h.wal, e4.trans h.live, e5.trans h.loaded, fun k => by rw [e6]; exact h.idle k,
    fun k => by rw [e7]; exact h.free k, fun k => by rw [e8]; exact h.clear k, hk⟩

theorem set_ne_none {K V : Type} [DecidableEq K] (m : K → Option V) (k x : K) (v : V) (h : x = k ∨ m x ≠ none) : set m k (some v) x ≠ none := by
  unfold set
  split
  · simp
  · rename_i e; exact h.resolve_left e

/-- The catalog after an admitted request shows the next world. -/
theorem cat_world {s : Sys} {w : World} (hw : Shows s w) (p : Plan) (ha : admit s.cat p = true) :
    (catAfter s.cat p).dbs = (w.serve p).1.dbs ∧ (catAfter s.cat p).colls = (w.serve p).1.colls ∧
      ∀ c, (w.serve p).1.colls c = true → (w.serve p).1.dbs c.db = true := by
  have haw := (admit_world hw p).symm.trans ha
  have hd' := hw.dbs
  have hc' := hw.colls
  have hin := hw.inside
  cases p with
  | createDb d =>
    have hd : w.dbs d = false := by simpa [World.ok, World.misplaced] using haw
    have e : (w.serve (.createDb d)).1 = { w with dbs := fun x => x == d || w.dbs x } := by
      unfold World.serve; rw [if_pos (by simp [World.ok, hd])]; rfl
    have e2 : catAfter s.cat (.createDb d) = { s.cat with dbs := set s.cat.dbs d true } := by
      show s.cat.createNs d = _; unfold Cat.createNs; rw [if_neg (by rw [hd', hd]; simp)]
    rw [e, e2]
    refine ⟨?_, hc', fun c hc => by simp [hin c hc]⟩
    funext x
    show set s.cat.dbs d true x = (x == d || w.dbs x)
    by_cases hx : x = d
    · subst hx; rw [set_same]; simp
    · rw [set_other _ _ _ _ hx, hd']; simp [hx]
  | dropDb d =>
    have hd : w.dbs d = true := by simpa [World.ok, World.misplaced] using haw
    have e : (w.serve (.dropDb d)).1 = ⟨fun x => x != d && w.dbs x, fun c => c.db != d && w.colls c⟩ := by
      unfold World.serve; rw [if_pos (by simp [World.ok, hd])]; rfl
    rw [e]
    refine ⟨?_, ?_, ?_⟩
    · funext x
      show set s.cat.dbs d false x = (x != d && w.dbs x)
      by_cases hx : x = d
      · subst hx; rw [set_same]; simp
      · rw [set_other _ _ _ _ hx, hd']; simp [hx]
    · funext c
      show (if c.db = d then false else s.cat.colls c) = (c.db != d && w.colls c)
      rw [hc']
      by_cases hx : c.db = d <;> simp [hx]
    · intro c hc
      simp only [Bool.and_eq_true] at hc ⊢
      exact ⟨hc.1, hin c hc.2⟩
  | createColl c =>
    by_cases hdb : w.dbs c.db = true
    · have hc : w.colls c = false := by simpa [World.ok, World.misplaced, hdb] using haw
      have e : (w.serve (.createColl c)).1 = { w with colls := fun x => x == c || w.colls x } := by
        unfold World.serve; rw [if_pos (by simp [World.ok, hc, hdb])]; rfl
      have e2 : catAfter s.cat (.createColl c) = { s.cat with colls := set s.cat.colls c true } := by
        show s.cat.createTable c = _; unfold Cat.createTable; rw [if_pos (by rw [hd', hc', hdb, hc]; rfl)]
      rw [e, e2]
      refine ⟨hd', ?_, ?_⟩
      · funext x
        show set s.cat.colls c true x = (x == c || w.colls x)
        by_cases hx : x = c
        · subst hx; rw [set_same]; simp
        · rw [set_other _ _ _ _ hx, hc']; simp [hx]
      · intro x hx
        by_cases hxc : x = c
        · subst hxc; exact hdb
        · exact hin x (by simpa [hxc] using hx)
    · have e : (w.serve (.createColl c)).1 = w := by
        unfold World.serve; rw [if_neg (by simp [World.ok, hdb])]
      have e2 : catAfter s.cat (.createColl c) = s.cat := by
        show s.cat.createTable c = _; unfold Cat.createTable; rw [if_neg (by rw [hd']; simp [hdb])]
      rw [e, e2]
      exact ⟨hd', hc', hin⟩
  | dropColl c =>
    have hc : w.colls c = true := by simpa [World.ok, World.misplaced] using haw
    have e : (w.serve (.dropColl c)).1 = { w with colls := fun x => x != c && w.colls x } := by
      unfold World.serve; rw [if_pos (by simp [World.ok, hc])]; rfl
    have e2 : catAfter s.cat (.dropColl c) = { s.cat with colls := set s.cat.colls c false } := by
      show s.cat.dropTable c = _; unfold Cat.dropTable; rw [if_pos (by rw [hw.computes]; exact hc)]
    rw [e, e2]
    refine ⟨hd', ?_, ?_⟩
    · funext x
      show set s.cat.colls c false x = (x != c && w.colls x)
      by_cases hx : x = c
      · subst hx; rw [set_same]; simp
      · rw [set_other _ _ _ _ hx, hc']; simp [hx]
    · intro x hx
      simp only [Bool.and_eq_true] at hx
      exact hin x hx.2
  | insert c _ =>
    have e : (w.serve (.insert c ‹_›)).1 = w := by unfold World.serve; split <;> rfl
    rw [e]; exact ⟨hd', hc', hin⟩
  | delete c _ =>
    have e : (w.serve (.delete c ‹_›)).1 = w := by unfold World.serve; split <;> rfl
    rw [e]; exact ⟨hd', hc', hin⟩
  | update c _ =>
    have e : (w.serve (.update c ‹_›)).1 = w := by unfold World.serve; split <;> rfl
    rw [e]; exact ⟨hd', hc', hin⟩
  | find c =>
    have e : (w.serve (.find c)).1 = w := by unfold World.serve; split <;> rfl
    rw [e]; exact ⟨hd', hc', hin⟩

/-- The memory after an admitted request keeps the collections of the catalog. -/
theorem known_create {s : Sys} (h : Ready s) (c : Coll) (x : Coll) (hx : (s.cat.createTable c).computes x = true) :
    (if s.mem c = none then set s.mem c (some (s.gen, [])) else s.mem) x ≠ none := by
  have hcx : x = c ∨ s.cat.computes x = true := by
    unfold Cat.createTable at hx
    split at hx
    · by_cases e : x = c
      · exact .inl e
      · refine .inr ?_
        unfold Cat.computes at hx ⊢
        simp only at hx
        rw [set_other _ _ _ _ e] at hx
        exact hx
    · exact .inr hx
  split
  · exact set_ne_none _ _ _ _ (hcx.imp id (h.known x))
  · rename_i hn
    rcases hcx with e | e
    · subst e; exact hn
    · exact h.known x e

/-- One request from a state where nothing is under way: the state is ready again, the answer is what the world says, and the catalog
shows the new world. -/
theorem ask_world {s : Sys} {w : World} (h : Ready s) (hw : Shows s w) (k : Nat) (p : Plan) :
    Ready (run s (ask k p)) ∧ Shows (run s (ask k p)) (w.serve p).1 ∧
      (run s (ask k p)).answers = (s.next, p, w.ok p || w.misplaced p) :: s.answers ∧ (run s (ask k p)).next = s.next + 1 := by
  have ha := admit_world hw p
  cases hok : (w.ok p || w.misplaced p) with
  | false =>
    rw [hok] at ha
    rw [ask_refused h k p ha]
    have : w.ok p = false := by simp only [Bool.or_eq_false_iff] at hok; exact hok.1
    refine ⟨ready_note h p false, ?_, rfl, rfl⟩
    unfold World.serve
    rw [if_neg (by rw [this]; simp)]
    exact ⟨hw.dbs, hw.colls, hw.inside⟩
  | true =>
    rw [hok] at ha
    obtain ⟨w1, w2, w3⟩ := cat_world hw p ha
    have write : ∀ c, p.writes = true → p.coll = some c → s.cat.computes c = true → catAfter s.cat p = s.cat →
        Ready (run s (ask k p)) ∧ Shows (run s (ask k p)) (w.serve p).1 ∧
        (run s (ask k p)).answers = (s.next, p, true) :: s.answers ∧ (run s (ask k p)).next = s.next + 1 := by
      intro c hp hc hcc hcat
      have hm := h.known c hcc
      cases hm' : s.mem c with
      | none => exact absurd hm' hm
      | some x =>
        obtain ⟨g, l⟩ := x
        rw [ask_write h k p c hp hc ha g l hm']
        rw [hcat] at w1 w2
        refine ⟨ready_of h rfl rfl rfl rfl rfl rfl rfl rfl ?_, ⟨w1, w2, w3⟩, rfl, rfl⟩
        intro y hy
        exact set_ne_none _ _ _ _ (.inr (h.known y hy))
    cases p with
    | createDb d =>
      rw [ask_createDb h k d ha]
      refine ⟨ready_of h rfl rfl rfl rfl rfl rfl rfl rfl ?_, ⟨w1, w2, w3⟩, rfl, rfl⟩
      intro c hc
      refine h.known c ?_
      have hc : (s.cat.createNs d).computes c = true := hc
      have hcc : s.cat.colls c = true := by
        unfold Cat.computes Cat.createNs at hc
        split at hc <;> (simp only [Bool.and_eq_true] at hc; exact hc.2)
      rw [hw.computes, ← hw.colls]
      exact hcc
    | dropDb d =>
      rw [ask_dropDb h k d ha]
      refine ⟨ready_of h rfl rfl rfl rfl rfl rfl rfl rfl ?_, ⟨w1, w2, w3⟩, rfl, rfl⟩
      intro c hc
      refine h.known c ?_
      have hc : (s.cat.dropNs d).computes c = true := hc
      rw [hw.computes, ← hw.colls]
      unfold Cat.computes Cat.dropNs at hc
      simp only [Bool.and_eq_true] at hc
      have := hc.2
      split at this
      · exact absurd this (by simp)
      · exact this
    | createColl c =>
      rw [ask_createColl h k c ha]
      exact ⟨ready_of h rfl rfl rfl rfl rfl rfl rfl rfl (known_create h c), ⟨w1, w2, w3⟩, rfl, rfl⟩
    | dropColl c =>
      rw [ask_dropColl h k c ha]
      refine ⟨ready_of h rfl rfl rfl rfl rfl rfl rfl rfl ?_, ⟨w1, w2, w3⟩, rfl, rfl⟩
      intro x hx
      have hx : (s.cat.dropTable c).computes x = true := hx
      unfold Cat.dropTable at hx
      rw [if_pos (show s.cat.computes c = true from ha)] at hx
      have hne : x ≠ c := by
        intro e
        subst e
        unfold Cat.computes at hx
        simp only [Bool.and_eq_true] at hx
        rw [set_same] at hx
        exact absurd hx.2 (by simp)
      show set s.mem c none x ≠ none
      rw [set_other _ _ _ _ hne]
      refine h.known x ?_
      unfold Cat.computes at hx ⊢
      simp only at hx
      rw [set_other _ _ _ _ hne] at hx
      exact hx
    | insert c _ => exact write c rfl rfl ha rfl
    | delete c _ => exact write c rfl rfl ha rfl
    | update c _ => exact write c rfl rfl ha rfl
    | find c =>
      rw [ask_find h k c ha]
      exact ⟨ready_note h _ true, ⟨w1, w2, w3⟩, rfl, rfl⟩

theorem run_append (s : Sys) (a b : List Event) : run s (a ++ b) = run (run s a) b := List.foldl_append

theorem serve_cons (s : Sys) (x : Nat × Plan) (ps : List (Nat × Plan)) : serve s (x :: ps) = serve (run s (ask x.1 x.2)) ps := by
  unfold serve
  rw [List.flatMap_cons, run_append]

theorem serve_append (s : Sys) (a b : List (Nat × Plan)) : serve s (a ++ b) = serve (serve s a) b := by
  unfold serve
  rw [List.flatMap_append, run_append]

theorem ready_init : Ready init :=
  ⟨rfl, rfl, rfl, rfl, rfl, fun _ => rfl, fun _ => rfl, fun _ => rfl, fun _ h => absurd h (by simp [init, Cat.computes])⟩

theorem shows_init : Shows init World.empty := ⟨rfl, rfl, fun _ h => absurd h (by simp [World.empty])⟩

/-- The node after a list of requests. -/
theorem serve_world (ps : List (Nat × Plan)) : ∀ (s : Sys) (w : World), Ready s → Shows s w →
    Ready (serve s ps) ∧ Shows (serve s ps) (w.afterAll (ps.map Prod.snd)) := by
  induction ps with
  | nil => intro s w h hw; exact ⟨h, hw⟩
  | cons x ps ih =>
    intro s w h hw
    obtain ⟨h1, h2, _⟩ := ask_world h hw x.1 x.2
    rw [serve_cons]
    exact ih _ _ h1 h2

theorem serve_reached (ps : List (Nat × Plan)) : Ready (serve init ps) ∧ Shows (serve init ps) (World.empty.afterAll (ps.map Prod.snd)) :=
  serve_world ps init World.empty ready_init shows_init

theorem serve_answers (ps : List (Nat × Plan)) : ∀ (s : Sys) (w : World), Ready s → Shows s w → w.placed (ps.map Prod.snd) →
    (serve s ps).answers.reverse.map (fun a => a.2.2) = s.answers.reverse.map (fun a => a.2.2) ++ w.answers (ps.map Prod.snd) := by
  induction ps with
  | nil => intro s w _ _ _; simp [serve, run, World.answers]
  | cons x ps ih =>
    intro s w h hw hp
    obtain ⟨h1, h2, h3, _⟩ := ask_world h hw x.1 x.2
    rw [serve_cons, ih _ _ h1 h2 hp.2, h3]
    have : (w.ok x.2 || w.misplaced x.2) = (w.serve x.2).2 := by
      rw [show w.misplaced x.2 = false from hp.1, Bool.or_false]
      unfold World.serve
      cases w.ok x.2 <;> rfl
    rw [this]
    simp [World.answers]

/-- The full claim of C09: the answers to any list of requests are those of the world of databases and collections. -/
def C09_answers_claim : Prop := ∀ ps : List (Nat × Plan),
  (serve init ps).answers.reverse.map (fun a => a.2.2) = World.empty.answers (ps.map Prod.snd)

/-- C09, for the lists of requests that create collections only in databases that exist: every request is answered, and with success exactly when
it makes sense in the world left by the requests before it. Missing: collections in databases that do not exist (`C09_missing_database_fails`). -/
theorem C09_answers_partial (ps : List (Nat × Plan)) (h : World.empty.placed (ps.map Prod.snd)) :
    (serve init ps).answers.reverse.map (fun a => a.2.2) = World.empty.answers (ps.map Prod.snd) := by
  rw [serve_answers ps init World.empty ready_init shows_init h]
  rfl

/-- C09: after any list of requests, whatever they were, the next request is answered with success if it makes sense in the world, and
otherwise refused, unless it creates a collection in a database that does not exist. -/
theorem C09_next (ps : List (Nat × Plan)) (k : Nat) (p : Plan) (hp : (World.empty.afterAll (ps.map Prod.snd)).misplaced p = false) :
    (serve init (ps ++ [(k, p)])).answers = ((serve init ps).next, p, (World.empty.afterAll (ps.map Prod.snd)).ok p) :: (serve init ps).answers := by
  obtain ⟨h, hw⟩ := serve_reached ps
  rw [serve_append]
  obtain ⟨_, _, h3, _⟩ := ask_world h hw k p
  rw [hp, Bool.or_false] at h3
  rw [serve_cons]
  exact h3

/-- C09: a refused request changes nothing: the catalog, the documents, the log, the disk and the commands under way to the disk stay. -/
theorem C09_refused (ps : List (Nat × Plan)) (k : Nat) (p : Plan) (n : Nat)
    (hr : (serve init (ps ++ [(k, p)])).answers = (n, p, false) :: (serve init ps).answers) :
    (serve init (ps ++ [(k, p)])).cat = (serve init ps).cat ∧ (serve init (ps ++ [(k, p)])).mem = (serve init ps).mem ∧
    (serve init (ps ++ [(k, p)])).log = (serve init ps).log ∧ (serve init (ps ++ [(k, p)])).disk = (serve init ps).disk ∧
    (serve init (ps ++ [(k, p)])).agent = (serve init ps).agent ∧ (serve init (ps ++ [(k, p)])).cmds = (serve init ps).cmds := by
  obtain ⟨h, hw⟩ := serve_reached ps
  rw [serve_append, serve_cons] at hr ⊢
  obtain ⟨_, _, h3, _⟩ := ask_world h hw k p
  have ha := admit_world hw p
  have e : run (serve init ps) (ask k p) = note (serve init ps) p false := by
    refine ask_refused h k p ?_
    rw [ha]
    have := h3.symm.trans hr
    injection this with this _
    injection this with _ this
    injection this
  show (serve (run (serve init ps) (ask k p)) []).cat = _ ∧ _
  rw [e]
  exact ⟨rfl, rfl, rfl, rfl, rfl, rfl⟩

/-- Creating a database twice, and dropping a collection that is not there, are refused; dropping the database allows its creation. -/
example : (serve init [(0, .createDb 1), (1, .createDb 1), (2, .dropColl ⟨1, 5⟩), (0, .createColl ⟨1, 5⟩), (0, .createColl ⟨1, 5⟩), (3, .dropDb 1),
    (3, .dropColl ⟨1, 5⟩), (0, .createDb 1)]).answers.reverse.map (fun a => a.2.2) = [true, false, false, true, false, true, false, true] := by
  decide +kernel

example : World.empty.placed [.createDb 1, .createColl ⟨1, 5⟩, .dropDb 1, .createDb 1] := by
  refine ⟨rfl, by decide +kernel, rfl, rfl, trivial⟩

/-- Creating a collection in a database that does not exist is answered with success. -/
theorem C09_missing_database_fails : ¬ C09_answers_claim := by
  intro h
  have := h [(0, .createColl ⟨1, 5⟩)]
  exact absurd this (by decide +kernel)

/-- The answer is success each time, the collection is in memory, and no request can use it. -/
theorem C09_missing_database_unusable_fails :
    (serve init [(0, .createColl ⟨1, 5⟩), (0, .createColl ⟨1, 5⟩), (0, .insert ⟨1, 5⟩ [⟨1, 1⟩]), (0, .dropColl ⟨1, 5⟩)]).answers.reverse.map (fun a => a.2.2)
      = [true, true, false, false] := by
  decide +kernel

/-- The claim that two clients cannot both create the same database. -/
def C09_exclusive_claim : Prop := ∀ (es : List Event) (n m d : Nat), (∀ e ∈ es, ∀ k x, e ≠ .request k (.dropDb x)) →
  (n, .createDb d, true) ∈ (run init es).answers → (m, .createDb d, true) ∈ (run init es).answers → n = m

/-- Two clients that ask at the same time are both told that they created the database: the check is made before the log answers. -/
theorem C09_concurrent_fails : ¬ C09_exclusive_claim := by
  intro h
  have e : (run init [.request 0 (.createDb 1), .request 1 (.createDb 1), .disp, .disp, .disp, .disp, .wal, .wal, .disp, .disp]).answers
      = [(1, .createDb 1, true), (0, .createDb 1, true)] := rfl
  have := h [.request 0 (.createDb 1), .request 1 (.createDb 1), .disp, .disp, .disp, .disp, .wal, .wal, .disp, .disp] 0 1 1
    (by intro x hx k y; fin_cases hx <;> simp)
    (by rw [e]; simp) (by rw [e]; simp)
  exact absurd this (by decide)

/-! ## Collections created anew -/

/-- The full claim of C10: a collection that a request has just created is empty. -/
def C10_fresh_claim : Prop := ∀ (ps : List (Nat × Plan)) (k : Nat) (c : Coll) (n : Nat),
  (serve init (ps ++ [(k, .createColl c)])).answers = (n, .createColl c, true) :: (serve init ps).answers →
  docs (serve init (ps ++ [(k, .createColl c)])) c = []

/-- Documents in memory belong to a collection of the catalog. -/
def Owned (s : Sys) (c : Coll) : Prop := docs s c ≠ [] → s.cat.computes c = true

theorem docs_mem {s t : Sys} {c : Coll} (h : t.mem c = s.mem c) : docs t c = docs s c := by unfold docs; rw [h]

theorem ask_owned {s : Sys} {w : World} (h : Ready s) (hw : Shows s w) (c : Coll) (ho : Owned s c) (k : Nat) (p : Plan) (hp : p ≠ .dropDb c.db) :
    Owned (run s (ask k p)) c := by
  have ha := admit_world hw p
  cases hok : (w.ok p || w.misplaced p) with
  | false =>
    rw [hok] at ha
    rw [ask_refused h k p ha]
    exact ho
  | true =>
    rw [hok] at ha
    have write : ∀ x, p.writes = true → p.coll = some x → s.cat.computes x = true → Owned (run s (ask k p)) c := by
      intro x hpw hc hcc
      have hm := h.known x hcc
      cases hm' : s.mem x with
      | none => exact absurd hm' hm
      | some y =>
        obtain ⟨g, l⟩ := y
        rw [ask_write h k p x hpw hc ha g l hm']
        by_cases e : c = x
        · subst e; exact fun _ => hcc
        · intro hd
          refine ho ?_
          rw [docs_mem (t := { enter (note s p true) s.next p (runPlan l p).2 with mem := set s.mem x (some (g, (runPlan l p).1)) }) (s := s) (set_other _ _ _ _ e)] at hd
          exact hd
    cases p with
    | createDb d =>
      rw [ask_createDb h k d ha]
      intro hd
      have := ho hd
      show (s.cat.createNs d).computes c = true
      unfold Cat.computes Cat.createNs at *
      split
      · exact this
      · simp only [Bool.and_eq_true] at this ⊢
        refine ⟨?_, this.2⟩
        unfold set
        split
        · rfl
        · exact this.1
    | dropDb d =>
      rw [ask_dropDb h k d ha]
      intro hd
      have := ho hd
      have hne : c.db ≠ d := fun e => hp (by rw [e])
      show (s.cat.dropNs d).computes c = true
      unfold Cat.computes Cat.dropNs at *
      simp only [Bool.and_eq_true] at this ⊢
      exact ⟨(set_other _ _ _ _ hne).trans this.1, (if_neg hne).trans this.2⟩
    | createColl x =>
      rw [ask_createColl h k x ha]
      intro hd
      by_cases e : c = x
      · subst e
        exfalso
        have hd : (match (if s.mem c = none then set s.mem c (some (s.gen, [])) else s.mem) c with
          | some (_, l) => l
          | none => []) ≠ [] := hd
        by_cases hm : s.mem c = none
        · rw [if_pos hm, set_same] at hd; exact hd rfl
        · rw [if_neg hm] at hd
          have := ho hd
          have ha : (!s.cat.computes c) = true := ha
          rw [this] at ha
          exact absurd ha (by simp)
      · have hm : (if s.mem x = none then set s.mem x (some (s.gen, [])) else s.mem) c = s.mem c := by
          split
          · exact set_other _ _ _ _ e
          · rfl
        have := ho (by rw [docs_mem (t := { enter (note s (.createColl x) true) s.next (.createColl x) [.appendColl x] with
            cat := s.cat.createTable x, mem := if s.mem x = none then set s.mem x (some (s.gen, [])) else s.mem,
            gen := if s.mem x = none then s.gen + 1 else s.gen }) (s := s) hm] at hd; exact hd)
        show (s.cat.createTable x).computes c = true
        unfold Cat.createTable
        split
        · unfold Cat.computes at *
          simp only [Bool.and_eq_true] at this ⊢
          exact ⟨this.1, (set_other _ _ _ _ e).trans this.2⟩
        · exact this
    | dropColl x =>
      rw [ask_dropColl h k x ha]
      intro hd
      by_cases e : c = x
      · subst e
        exfalso
        have hd : (match set s.mem c none c with
          | some (_, l) => l
          | none => []) ≠ [] := hd
        rw [set_same] at hd
        exact hd rfl
      · have := ho (by rw [docs_mem (t := { enter (note s (.dropColl x) true) s.next (.dropColl x) [.removeColl x] with
            cat := s.cat.dropTable x, mem := set s.mem x none }) (s := s) (set_other _ _ _ _ e)] at hd; exact hd)
        show (s.cat.dropTable x).computes c = true
        unfold Cat.dropTable
        split
        · unfold Cat.computes at *
          simp only [Bool.and_eq_true] at this ⊢
          exact ⟨this.1, (set_other _ _ _ _ e).trans this.2⟩
        · exact this
    | insert x _ => exact write x rfl rfl ha
    | delete x _ => exact write x rfl rfl ha
    | update x _ => exact write x rfl rfl ha
    | find x =>
      rw [ask_find h k x ha]
      exact ho

theorem serve_owned (c : Coll) (ps : List (Nat × Plan)) : ∀ (s : Sys) (w : World), Ready s → Shows s w → Owned s c →
    (∀ x ∈ ps, x.2 ≠ .dropDb c.db) → Owned (serve s ps) c := by
  induction ps with
  | nil => intro s w _ _ h _; exact h
  | cons x ps ih =>
    intro s w h hw ho hp
    obtain ⟨h1, h2, _⟩ := ask_world h hw x.1 x.2
    rw [serve_cons]
    exact ih _ _ h1 h2 (ask_owned h hw c ho x.1 x.2 (hp x List.mem_cons_self)) (fun y hy => hp y (List.mem_cons_of_mem _ hy))

/-- C10, for histories that never drop the database of the collection: whatever was created, inserted, updated, deleted and dropped before,
a collection that a request has just created is empty. Missing: histories that drop the database (`C10_dropped_database_fails`). -/
theorem C10_fresh_partial (ps : List (Nat × Plan)) (k : Nat) (c : Coll) (n : Nat) (hp : ∀ x ∈ ps, x.2 ≠ .dropDb c.db)
    (ha : (serve init (ps ++ [(k, .createColl c)])).answers = (n, .createColl c, true) :: (serve init ps).answers) :
    docs (serve init (ps ++ [(k, .createColl c)])) c = [] := by
  obtain ⟨h, hw⟩ := serve_reached ps
  have ho : Owned (serve init ps) c := serve_owned c ps init World.empty ready_init shows_init (fun h => absurd rfl h) hp
  rw [serve_append, serve_cons] at ha ⊢
  obtain ⟨_, _, h3, _⟩ := ask_world h hw k (.createColl c)
  have hadm : admit (serve init ps).cat (.createColl c) = true := by
    rw [admit_world hw]
    have := h3.symm.trans ha
    injection this with this _
    injection this with _ this
    injection this
  show docs (run (serve init ps) (ask k (.createColl c))) c = []
  rw [ask_createColl h k c hadm]
  have hcc : (serve init ps).cat.computes c = false := by simpa [admit] using hadm
  show (match (if (serve init ps).mem c = none then set (serve init ps).mem c (some ((serve init ps).gen, [])) else (serve init ps).mem) c with
    | some (_, l) => l
    | none => []) = []
  by_cases hm : (serve init ps).mem c = none
  · rw [if_pos hm, set_same]
  · rw [if_neg hm]
    by_contra hne
    have := ho hne
    rw [hcc] at this
    exact absurd this (by simp)

/-- Create, fill, drop, create again. -/
def again : List (Nat × Plan) := [(0, .createDb 1), (0, .createColl ⟨1, 5⟩), (0, .insert ⟨1, 5⟩ [⟨1, 10⟩, ⟨2, 20⟩]), (0, .dropColl ⟨1, 5⟩)]

example : docs (serve init (again.take 3)) ⟨1, 5⟩ = [⟨1, 10⟩, ⟨2, 20⟩] := by decide +kernel

example : (∀ x ∈ again, x.2 ≠ .dropDb 1) ∧
    (serve init (again ++ [(0, .createColl ⟨1, 5⟩)])).answers = (4, .createColl ⟨1, 5⟩, true) :: (serve init again).answers :=
  ⟨by intro x hx; fin_cases hx <;> simp, rfl⟩

/-- After dropping the database and creating it again, the new collection contains the old documents. -/
theorem C10_dropped_database_fails : ¬ C10_fresh_claim := by
  intro h
  have := h [(0, .createDb 1), (0, .createColl ⟨1, 5⟩), (0, .insert ⟨1, 5⟩ [⟨1, 10⟩]), (0, .dropDb 1), (0, .createDb 1)] 0 ⟨1, 5⟩ 5 rfl
  exact absurd this (by decide +kernel)

/-- Draining the queue of the disk. -/
def drained (n : Nat) : List Event := List.replicate n .agent

/-- The claim that a dropped database is still dropped after a restart (and may be created again). -/
def C10_restart_claim : Prop := ∀ (ps : List (Nat × Plan)) (k d n m : Nat),
  (serve init (ps ++ [(k, .dropDb d)])).answers = (n, .dropDb d, true) :: (serve init ps).answers →
  (run (serve init (ps ++ [(k, .dropDb d)])) (drained m ++ [.crash])).cat.dbs d = false

/-- A dropped database is back after a restart, with its collections and documents: the disk is never told. -/
theorem C10_restart_fails : ¬ C10_restart_claim ∧
    docs (run (serve init [(0, .createDb 1), (0, .createColl ⟨1, 5⟩), (0, .insert ⟨1, 5⟩ [⟨1, 10⟩]), (0, .dropDb 1)]) (drained 20 ++ [.crash])) ⟨1, 5⟩
      = [⟨1, 10⟩] := by
  refine ⟨fun h => ?_, by decide +kernel⟩
  have := h [(0, .createDb 1), (0, .createColl ⟨1, 5⟩), (0, .insert ⟨1, 5⟩ [⟨1, 10⟩])] 0 1 3 20 rfl
  exact absurd this (by decide +kernel)

end Verif.Node
