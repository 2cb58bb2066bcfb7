import Verif.Place.Inst
/-!
C101: what is stored is kept in files of its own. C102: no two instances use one directory.
-/
namespace Verif.Place
open Verif

/-! ### C101 -/

/-- For names that can be names of files, databases not named as a file of the engine and indexes not named
`base_index`, every history leaves in each file what was stored there last, and other files alone. -/
theorem C101_files_partial (cfg : Cfg) (fs : Fs) (h : List Call) (hg : goodCfg cfg) (ho : ∀ e ∈ fs, outside cfg e.1)
    (hc : ∀ c ∈ h, goodCall c) :
    ∃ fs', run cfg fs h = .ok fs' ∧ (∀ k, goodKey k → read cfg fs' k = held k h) ∧ (∀ l, outside cfg l → get fs' l = get fs l) := by
  obtain ⟨fs', e, -, hk, hl⟩ := run_ok hg h fs (fun e he => .inr (ho e he)) hc
  refine ⟨fs', e, fun k hk' => ?_, hl⟩
  rw [read, locate_path hg hk', hk k hk', held, get_none]
  intro e he h
  exact place_not_outside (h ▸ ho e he)

/-- Everything the engine writes is in the storage directory, or is the log. -/
theorem C101_confined_partial (cfg : Cfg) (fs fs' : Fs) (h : List Call) (hg : goodCfg cfg) (ho : ∀ e ∈ fs, outside cfg e.1)
    (hc : ∀ c ∈ h, goodCall c) (hr : run cfg fs h = .ok fs') (e : Loc × Bytes) (he : e ∈ fs') :
    diskDir cfg <+: e.1 ∨ e.1 = walDir cfg ++ [walName] ∨ (outside cfg e.1 ∧ get fs e.1 ≠ none) := by
  obtain ⟨fs1, e1, hi, -, hl⟩ := run_ok hg h fs (fun e he => .inr (ho e he)) hc
  rw [e1] at hr; cases hr
  rcases hi e he with ⟨k, -, hk⟩ | hout
  · cases k with
    | log => exact .inr (.inl hk)
    | _ => exact .inl (hk ▸ List.prefix_append _ _)
  · refine .inr (.inr ⟨hout, ?_⟩)
    rw [← hl _ hout]
    intro hn
    unfold get at hn
    rw [Option.map_eq_none_iff, List.find?_eq_none] at hn
    simpa using hn e he

/-- Dropping an index named `base_index` removes the documents of the collection. -/
theorem C101_base_index_fails (cfg : Cfg) (hg : goodCfg cfg) (d c f b : Bytes) (hd : dbName d) (hc : plain c) (hf : plain f) :
    ∃ fs, run cfg [] [.save (.doc d c f) b, .dropIdx d c baseIndex] = .ok fs ∧ read cfg fs (.doc d c f) = none ∧
      held (.doc d c f) [.save (.doc d c f) b, .dropIdx d c baseIndex] = some b := by
  have hk : goodKey (.doc d c f) := ⟨hd, hc, hf⟩
  refine ⟨[], ?_, rfl, by simp [held, after, Key.ofIdx]⟩
  have hp := put_ok (fs := []) (l := place cfg (.doc d c f)) b (by simp)
  simp only [run, step]
  rw [locate_path hg hk, hp, Res.bind, locate_idx hg.1 hd.1 hc plain_baseIndex]
  simp [Res.bind, removeDir, place]

/-- An index named `base_index` writes over the documents: they share their files. -/
theorem C101_shared_tree_fails (cfg : Cfg) (d c f : Bytes) : path cfg (.idx d c baseIndex f) = path cfg (.doc d c f) := rfl

/-- Dropping the collection `.` of a database removes all its collections. -/
theorem C101_dot_fails (cfg : Cfg) (hg : goodCfg cfg) (d c f b : Bytes) (hd : dbName d) (hc : plain c) (hf : plain f) :
    ∃ fs, run cfg [] [.save (.doc d c f) b, .dropColl d [46]] = .ok fs ∧ read cfg fs (.doc d c f) = none := by
  have hk : goodKey (.doc d c f) := ⟨hd, hc, hf⟩
  refine ⟨[], ?_, rfl⟩
  have hp := put_ok (fs := []) (l := place cfg (.doc d c f)) b (by simp)
  have hl : locate cfg.cwd (collPath cfg d [46]) = diskDir cfg ++ [d] := by
    unfold collPath
    rw [locate_relative _ (join_no_zero hg.1 hd.1.2.2.2.2) (by simp) (by simp), locate_join _ hg.1 hd.1]
    simp [split, walk, diskDir]
  simp only [run, step]
  rw [locate_path hg hk, hp, Res.bind, hl]
  simp [Res.bind, removeDir, place]

/-- Dropping the collection `../x` of one database removes the database `x`. -/
theorem C101_parent_fails (cfg : Cfg) (hg : goodCfg cfg) (d x c f b : Bytes) (hd : dbName d) (hx : dbName x) (hc : plain c) (hf : plain f) :
    ∃ fs, run cfg [] [.save (.doc x c f) b, .dropColl d (46 :: 46 :: 47 :: x)] = .ok fs ∧ read cfg fs (.doc x c f) = none := by
  have hk : goodKey (.doc x c f) := ⟨hx, hc, hf⟩
  refine ⟨[], ?_, rfl⟩
  have hp := put_ok (fs := []) (l := place cfg (.doc x c f)) b (by simp)
  have hl : locate cfg.cwd (collPath cfg d (46 :: 46 :: 47 :: x)) = diskDir cfg ++ [x] := by
    unfold collPath
    rw [locate_relative _ (join_no_zero hg.1 hd.1.2.2.2.2) (by simpa using hx.1.2.2.2.2) (by simp), locate_join _ hg.1 hd.1]
    have e : split (46 :: 46 :: 47 :: x) = [[46, 46], x] := by
      rw [show (46 :: 46 :: 47 :: x : Bytes) = [46, 46] ++ 47 :: x from rfl, split_append, split_name x hx.1.2.2.2.1]; rfl
    rw [e]
    simp only [List.foldl_cons, List.foldl_nil, walk_plain hx.1]
    simp [walk, diskDir]
  simp only [run, step]
  rw [locate_path hg hk, hp, Res.bind, hl]
  simp [Res.bind, removeDir, place]

/-- Dropping a collection whose name is an absolute path removes what is there, wherever that is. -/
theorem C101_absolute_fails (cfg : Cfg) (fs : Fs) (d q : Bytes) (hq : q.head? = some 47) (l : Loc) (hl : locate [] q <+: l)
    (hn : ∀ e ∈ fs, e.1 ≠ locate [] q) :
    ∃ fs', run cfg fs [.dropColl d q] = .ok fs' ∧ get fs' l = none := by
  refine ⟨removeDir fs (locate [] q), ?_, ?_⟩
  · simp only [run, step, collPath]
    rw [locate_absolute _ hq]; rfl
  · rw [get_removeDir hn, if_pos hl]

/-- The collection `b/c` of the database `a` and the collection `c` of the database `a/b` are one. -/
theorem C101_slash_fails (cfg : Cfg) (a b c f : Bytes) (ha : plain a) (hb : plain b) (hc : plain c) :
    path cfg (.doc a (b ++ 47 :: c) f) = path cfg (.doc (a ++ 47 :: b) c f) := by
  have h1 : (b ++ 47 :: c).head? ≠ some 47 := by
    obtain ⟨x, r, rfl⟩ := List.exists_cons_of_ne_nil hb.1
    simpa using head_plain hb
  have h2 : (a ++ 47 :: b).head? ≠ some 47 := by
    obtain ⟨x, r, rfl⟩ := List.exists_cons_of_ne_nil ha.1
    simpa using head_plain ha
  have last : ∀ (p n : Bytes), plain n → (p ++ n).getLast? ≠ some 47 := by
    intro p n hn e
    obtain ⟨x, r, rfl⟩ := List.exists_cons_of_ne_nil hn.1
    rw [List.getLast?_append] at e
    cases hl : (x :: r).getLast? with
    | none => simp at hl
    | some y =>
      rw [hl] at e
      simp at e
      subst e
      exact hn.2.2.2.1 (List.mem_of_getLast? hl)
  suffices h : collPath cfg a (b ++ 47 :: c) = collPath cfg (a ++ 47 :: b) c by simp only [path, h]
  unfold collPath
  have j1 : ∀ p n : Bytes, n.head? ≠ some 47 → join p n = if p = [] ∨ p.getLast? = some 47 then p ++ n else p ++ 47 :: n :=
    fun p n h => if_neg h
  have end1 : ∀ (p n : Bytes), plain n → ¬ (p ++ n = [] ∨ (p ++ n).getLast? = some 47) := by
    intro p n hn h
    rcases h with h | h
    · exact hn.1 (List.append_eq_nil_iff.1 h).2
    · exact last p n hn h
  rw [j1 cfg.disk a (head_plain ha), j1 cfg.disk _ h2, j1 _ _ h1, j1 _ c (head_plain hc)]
  by_cases hd : cfg.disk = [] ∨ cfg.disk.getLast? = some 47
  · rw [if_pos hd, if_pos hd, if_neg (end1 _ a ha), if_neg (by rw [show cfg.disk ++ (a ++ 47 :: b) = (cfg.disk ++ a ++ [47]) ++ b by simp]; exact end1 _ b hb)]
    simp
  · rw [if_neg hd, if_neg hd, if_neg (by rw [show cfg.disk ++ 47 :: a = (cfg.disk ++ [47]) ++ a by simp]; exact end1 _ a ha),
      if_neg (by rw [show cfg.disk ++ 47 :: (a ++ 47 :: b) = (cfg.disk ++ 47 :: a ++ [47]) ++ b by simp]; exact end1 _ b hb)]
    simp

/-- A database named as one of the files of the engine cannot be stored. -/
theorem C101_own_name_fails (cfg : Cfg) (hg : goodCfg cfg) (n c f b b' : Bytes) (hn : n ∈ ownNames) (hc : plain c) (hf : plain f) :
    run cfg [] [.save (.own n) b, .save (.doc n c f) b'] = .throws := by
  have hk : goodKey (.own n) := hn
  have hp := put_ok (fs := []) (l := place cfg (.own n)) b (by simp)
  have hl : locate cfg.cwd (path cfg (.doc n c f)) = diskDir cfg ++ [n, c, baseIndex, f] := by
    have h3 := locate_idx (i := baseIndex) hg.1 (plain_own n hn) hc plain_baseIndex
    unfold idxPath at h3
    simp only [path]
    rw [locate_join _ (join_no_zero (collPath_no_zero hg.1 (plain_own n hn) hc) plain_baseIndex.2.2.2.2) hf, h3]
    simp
  simp only [run, step]
  rw [locate_path hg hk, hp, Res.bind, hl]
  simp [put, place, Res.bind]

/-- A storage directory `/a/wal`, as `create_config` makes it. -/
def demo : Cfg := createConfig [] (spelled [[97]])

theorem demo_good : goodCfg demo := by
  refine ⟨by decide, by decide, .inl ?_⟩
  rfl

theorem C101_files_fails : ¬ C101_files_claim := by
  intro h
  obtain ⟨fs, e, hr, -⟩ := h demo [] [.save (.doc [100] [99] [102]) [1], .dropIdx [100] [99] baseIndex] demo_good (by simp)
  obtain ⟨fs', e', hn, hh⟩ := C101_base_index_fails demo demo_good [100] [99] [102] [1] (by decide) (by decide) (by decide)
  rw [e'] at e; cases e
  have := hr (.doc [100] [99] [102])
  rw [hn, hh] at this
  cases this

/-- Documents, an index, the log and the list of databases; then the index is dropped. -/
def demoCalls : List Call :=
  [.save .log [1], .save (.own [77, 69, 84, 65, 68, 65, 84, 65]) [2], .save (.doc [100] [99] [102]) [3], .save (.idx [100] [99] [105] [102]) [4],
    .save (.doc [100] [101] [102]) [5], .dropIdx [100] [99] [105], .dropColl [100] [101], .save (.doc [100] [99] [102]) [6]]

theorem demoCalls_good : ∀ c ∈ demoCalls, goodCall c := by
  intro c hc
  simp only [demoCalls, List.mem_cons, List.not_mem_nil, or_false] at hc
  rcases hc with rfl | rfl | rfl | rfl | rfl | rfl | rfl | rfl <;> simp only [goodCall, goodKey] <;> decide

example : ∃ fs, run demo [] demoCalls = .ok fs ∧ read demo fs (.doc [100] [99] [102]) = some [6] ∧ read demo fs (.idx [100] [99] [105] [102]) = none ∧
    read demo fs (.doc [100] [101] [102]) = none ∧ read demo fs .log = some [1] := by
  obtain ⟨fs, e, hk, -⟩ := C101_files_partial demo [] demoCalls demo_good (by simp) demoCalls_good
  exact ⟨fs, e, (hk _ (by simp only [goodKey]; decide)).trans (by decide), (hk _ (by simp only [goodKey]; decide)).trans (by decide),
    (hk _ (by simp only [goodKey]; decide)).trans (by decide), (hk .log trivial).trans (by decide)⟩

/-- A file of someone else: `/home/x` -/
example : outside demo [[104], [120]] := by unfold outside; decide

/-! ### C102 -/

/-- Two instances a program has, or is making, have different main paths, whatever the threads do. -/
theorem C102_exclusive_partial (cfg : Nat → Cfg) (s : Inst) (hs : reached cfg s) (i j : Nat) (hij : i ≠ j) (hi : held_ (s.phase i)) (hj : held_ (s.phase j)) :
    pathKey (cfg i).main ≠ pathKey (cfg j).main :=
  fun e => hij ((good_reached hs).one i j (held_owns hi) (held_owns hj) e)

/-- If every instance is made by `create_config` for an absolute path, written without detours, their
directories differ. -/
theorem C102_directories_partial (names : Nat → List Bytes) (cwd : Loc) (hn : ∀ i, names i ≠ [] ∧ ∀ n ∈ names i, plain n) (s : Inst)
    (hs : reached (fun i => createConfig cwd (spelled (names i))) s) (i j : Nat) (hij : i ≠ j) (hi : held_ (s.phase i)) (hj : held_ (s.phase j)) :
    diskDir (createConfig cwd (spelled (names i))) ≠ diskDir (createConfig cwd (spelled (names j))) := by
  have noz : ∀ i, 0 ∉ spelled (names i) := by
    intro i h
    simp only [spelled, List.mem_flatMap, List.mem_cons] at h
    obtain ⟨n, hm, h | h⟩ := h
    · exact absurd h (by decide)
    · exact ((hn i).2 n hm).2.2.2.2 h
  have loc : ∀ i, diskDir (createConfig cwd (spelled (names i))) = names i ++ [[119, 97, 108]] := by
    intro i
    unfold diskDir createConfig
    simp only
    rw [locate_join _ (noz i) (by decide)]
    congr 1
    unfold locate
    rw [cstr_eq (noz i)]
    have hh : (spelled (names i)).head? = some 47 := by
      obtain ⟨x, r, e⟩ := List.exists_cons_of_ne_nil (hn i).1
      rw [e]; rfl
    rw [if_pos hh, spelled, split_spelled _ (hn i).2, List.foldl_cons, show walk [] [] = [] from rfl, walk_names _ (hn i).2]
    rfl
  intro e
  rw [loc, loc] at e
  have e' : names i = names j := List.append_cancel_right e
  exact C102_exclusive_partial _ s hs i j hij hi hj (by simp only [createConfig, e'])

/-- An instance for a path that another one has is refused. -/
theorem C102_refused (cfg : Nat → Cfg) (s : Inst) (hs : reached cfg s) (i j : Nat) (hi : s.phase i = .fresh) (hj : held_ (s.phase j))
    (e : pathKey (cfg j).main = pathKey (cfg i).main) :
    ∃ s', act cfg s (.check i) = some s' ∧ s'.phase i = .refused ∧ ∀ k, k ≠ i → s'.phase k = s.phase k := by
  have h : pathKey (cfg i).main ∈ s.taken := ((good_reached hs).taken _).2 ⟨j, held_owns hj, e⟩
  refine ⟨setPhase s i .refused, ?_, setPhase_self _ _ _, fun k hk => setPhase_other _ _ hk⟩
  simp [act, hi, h]

/-- Nor is a path refused for no reason: those that are taken for the same lead to the same place. -/
theorem C102_same_place (cwd : Loc) (p q : Bytes) (hp : 0 ∉ p) (hq : 0 ∉ q) (e : pathKey p = pathKey q) : locate cwd p = locate cwd q := by
  have hf : ∀ (ws : List Bytes) (l : Loc), (ws.filter fun w => w ≠ []).foldl walk l = ws.foldl walk l := by
    intro ws
    induction ws with
    | nil => intro l; rfl
    | cons w ws ih =>
      intro l
      by_cases hw : w = []
      · subst hw
        simpa [walk] using ih l
      · simpa [hw] using ih (walk l w)
  simp only [pathKey, Prod.mk.injEq] at e
  obtain ⟨e1, e2, -⟩ := e
  have e3 : (p.head? = some 47) ↔ (q.head? = some 47) := by
    rw [← beq_iff_eq (a := p.head?), ← beq_iff_eq (a := q.head?), e1]
  unfold locate
  rw [cstr_eq hp, cstr_eq hq, ← hf (split p), ← hf (split q), e2]
  by_cases h : p.head? = some 47
  · rw [if_pos h, if_pos (e3.mp h)]
  · rw [if_neg h, if_neg (fun h' => h (e3.mpr h'))]

/-- `//a` and `/a` are taken for the same; `a` and `/a` are not. -/
example : pathKey [47, 47, 97] = pathKey [47, 97] ∧ pathKey [97] ≠ pathKey [47, 97] := by decide

/-- A path can be opened again once its instances are closed, if opening it never failed. -/
theorem C102_reopen_partial (cfg : Nat → Cfg) (s : Inst) (hs : reached cfg s) (i : Nat) (hi : s.phase i = .fresh)
    (hn : ∀ j, pathKey (cfg j).main = pathKey (cfg i).main → ¬ held_ (s.phase j) ∧ s.phase j ≠ .failed) :
    ∃ s', act cfg s (.check i) = some s' ∧ s'.phase i = .opening := by
  have h : pathKey (cfg i).main ∉ s.taken := by
    intro h
    obtain ⟨j, ho, e⟩ := ((good_reached hs).taken _).1 h
    obtain ⟨h1, h2⟩ := hn j e
    cases hp : s.phase j <;> simp_all [owns, held_]
  refine ⟨_, by simp only [act, hi, h, if_true, if_false]; rfl, ?_⟩
  simp [setPhase]

/-- Once the making of an instance has failed behind the check, its path cannot be opened any more, by
anyone, whatever happens since. -/
theorem C102_failed_open_fails (cfg : Nat → Cfg) (s s' : Inst) (as : List Act) (hs : reached cfg s) (i j : Nat) (hi : s.phase i = .failed)
    (h : acts cfg s as = some s') (hj : s'.phase j = .fresh) (e : pathKey (cfg i).main = pathKey (cfg j).main) :
    ∃ s2, act cfg s' (.check j) = some s2 ∧ s2.phase j = .refused := by
  have hf := failed_stays as hi h
  have hm : pathKey (cfg j).main ∈ s'.taken := ((good_acts as (good_reached hs) h).taken _).2 ⟨i, by rw [hf]; trivial, e⟩
  exact ⟨setPhase s' j .refused, by simp [act, hj, hm], setPhase_self _ _ _⟩

theorem C102_reopen_fails : ¬ C102_reopen_claim := by
  intro h
  obtain ⟨s, hs⟩ : ∃ s, acts (fun _ => demo) start [.check 0, .openFails 0] = some s := by simp [acts, act, start, setPhase]
  have hp : s.phase 0 = .failed ∧ ∀ j, j ≠ 0 → s.phase j = .fresh := by
    simp [acts, act, start, setPhase] at hs
    subst hs
    simp +contextual
  obtain ⟨s', e, ho⟩ := h (fun _ => demo) s ⟨_, hs⟩ 1 (hp.2 1 (by decide)) (by
    intro j hj
    by_cases h0 : j = 0
    · subst h0; rw [hp.1] at hj; exact hj.elim
    · rw [hp.2 j h0] at hj; exact hj.elim)
  obtain ⟨s2, e2, hr⟩ := C102_failed_open_fails (fun _ => demo) s s [] ⟨_, hs⟩ 0 1 hp.1 rfl (hp.2 1 (by decide)) rfl
  rw [e] at e2; cases e2
  rw [ho] at hr; cases hr

/-- While one instance is being destroyed another one for the same path is made: both have the files open. -/
theorem C102_closing_fails (cfg : Nat → Cfg) (i j : Nat) (hij : i ≠ j) (e : pathKey (cfg i).main = pathKey (cfg j).main) :
    ∃ s, acts cfg start [.check i, .opened i, .erase i, .check j, .opened j] = some s ∧ using_ (s.phase i) ∧ s.phase j = .live := by
  refine ⟨_, by simp [acts, act, start, setPhase, hij.symm, e]; rfl, ?_⟩
  simp [hij, using_]

/-- Two instances for paths that are written differently live at the same time, even if the directory is the
same. -/
theorem C102_two_spellings_fails (cfg : Nat → Cfg) (i j : Nat) (hij : i ≠ j) (e : pathKey (cfg i).main ≠ pathKey (cfg j).main) :
    ∃ s, acts cfg start [.check i, .opened i, .check j, .opened j] = some s ∧ s.phase i = .live ∧ s.phase j = .live := by
  refine ⟨_, by simp [acts, act, start, setPhase, hij.symm, Ne.symm e]; rfl, ?_⟩
  simp [hij]

/-- `/a` and `/a/` are such paths, and so are `/a` and `/b/../a`. -/
example : pathKey (createConfig [] [47, 97]).main ≠ pathKey (createConfig [] [47, 97, 47]).main ∧
    diskDir (createConfig [] [47, 97]) = diskDir (createConfig [] [47, 97, 47]) := by decide
example : pathKey (createConfig [] [47, 97]).main ≠ pathKey (createConfig [] [47, 98, 47, 46, 46, 47, 97]).main ∧
    diskDir (createConfig [] [47, 97]) = diskDir (createConfig [] [47, 98, 47, 46, 46, 47, 97]) := by decide

theorem C102_exclusive_fails : ¬ C102_exclusive_claim := by
  intro h
  obtain ⟨s, e, h1, h2⟩ := C102_two_spellings_fails (fun i => if i = 0 then createConfig [] [47, 97] else createConfig [] [47, 97, 47]) 0 1
    (by decide) (by decide)
  refine h _ s ⟨_, e⟩ 0 1 (by decide) ?_ ?_ (by decide)
  · rw [h1]; trivial
  · rw [h2]; trivial

/-- Two instances in different directories, one of them closed and opened again by a third. -/
example : ∃ s, acts (fun i => if i = 1 then createConfig [] [47, 98] else createConfig [] [47, 97]) start
    [.check 0, .check 1, .opened 1, .opened 0, .check 2, .erase 0, .destroyed 0, .check 3, .opened 3] = some s ∧
    s.phase 0 = .gone ∧ s.phase 1 = .live ∧ s.phase 2 = .refused ∧ s.phase 3 = .live := by
  refine ⟨_, rfl, ?_⟩
  decide

end Verif.Place
