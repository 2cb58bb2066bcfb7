import Verif.Place.Spec
/-!
Lemmas about paths and files.
-/
namespace Verif.Place
open Verif

/-! ### Paths -/

theorem split_ne : ∀ s, split s ≠ []
  | [] => by simp [split]
  | c :: r => by
    unfold split; split
    · simp
    · split <;> simp

theorem split_name : ∀ (s : Bytes), 47 ∉ s → split s = [s]
  | [], _ => rfl
  | c :: r, h => by
    have hc : c ≠ 47 := fun e => h (e ▸ by simp)
    have := split_name r fun e => h (by simp [e])
    simp [split, hc, this]

theorem split_append : ∀ (a b : Bytes), split (a ++ 47 :: b) = split a ++ split b
  | [], b => by simp [split]
  | c :: a, b => by
    by_cases hc : c = 47
    · subst hc; simp [split, split_append a b]
    · simp only [List.cons_append, split, hc, if_false, split_append a b]
      cases h : split a with
      | nil => exact absurd h (split_ne a)
      | cons w ws => rfl

theorem cstr_eq {s : Bytes} (h : 0 ∉ s) : cstr s = s := by
  unfold cstr
  induction s with
  | nil => rfl
  | cons c s ih =>
    have hc : c ≠ 0 := fun e => h (e ▸ by simp)
    rw [List.takeWhile_cons_of_pos (by simpa using hc), ih fun e => h (by simp [e])]

theorem walk_plain {n : Bytes} (h : plain n) (l : Loc) : walk l n = l ++ [n] := by
  obtain ⟨h1, h2, h3, -, -⟩ := h
  simp [walk, h1, h2, h3]

theorem join_no_zero {p q : Bytes} (hp : 0 ∉ p) (hq : 0 ∉ q) : 0 ∉ join p q := by
  unfold join
  split
  · exact hq
  · split
    · simp [hp, hq]
    · simp [hp, hq]

theorem head_plain {n : Bytes} (h : plain n) : n.head? ≠ some 47 := by
  obtain ⟨-, -, -, h4, -⟩ := h
  cases n with
  | nil => simp
  | cons c r => intro e; simp at e; subst e; exact h4 (by simp)

/-- Following a relative path from the directory `p`. -/
theorem locate_relative (cwd : Loc) {p q : Bytes} (hp : 0 ∉ p) (hq : 0 ∉ q) (hr : q.head? ≠ some 47) :
    locate cwd (join p q) = (split q).foldl walk (locate cwd p) := by
  unfold locate
  rw [cstr_eq (join_no_zero hp hq), cstr_eq hp]
  have hj : join p q = if p = [] ∨ p.getLast? = some 47 then p ++ q else p ++ 47 :: q := if_neg hr
  rw [hj]
  cases p with
  | nil => simp [hr, split, walk]
  | cons c p' =>
    by_cases hl : (c :: p').getLast? = some 47
    · rw [if_pos (show c :: p' = [] ∨ _ from .inr hl)]
      obtain ⟨a, ha⟩ : ∃ a, c :: p' = a ++ [47] := by
        rw [List.getLast?_eq_some_iff] at hl
        exact hl
      have e1 : split (c :: p') = split a ++ [[]] := by rw [ha, split_append a []]; rfl
      have e2 : split (c :: p' ++ q) = split a ++ split q := by
        rw [ha, List.append_assoc, List.singleton_append, split_append]
      rw [e1, e2]
      simp only [List.foldl_append, List.foldl_cons, List.foldl_nil, List.cons_append, List.head?_cons]
      simp [walk]
    · rw [if_neg (show ¬ (c :: p' = [] ∨ (c :: p').getLast? = some 47) from fun h => h.elim (by simp) hl), split_append]
      simp only [List.foldl_append, List.cons_append, List.head?_cons]
      rfl

/-- The directory `n` in the directory `p`. -/
theorem locate_join (cwd : Loc) {p n : Bytes} (hp : 0 ∉ p) (hn : plain n) : locate cwd (join p n) = locate cwd p ++ [n] := by
  rw [locate_relative cwd hp hn.2.2.2.2 (head_plain hn), split_name n hn.2.2.2.1]
  exact walk_plain hn _

/-- An absolute path leads to the same place from everywhere. -/
theorem locate_absolute (cwd : Loc) {p q : Bytes} (hr : q.head? = some 47) : locate cwd (join p q) = locate [] q := by
  have hj : join p q = q := if_pos hr
  rw [hj]
  have hc : (cstr q).head? = some 47 := by
    cases q with
    | nil => cases hr
    | cons c r => simp at hr; subst hr; rfl
  unfold locate
  rw [if_pos hc, if_pos hc]

theorem plain_baseIndex : plain baseIndex := by decide
theorem plain_walName : plain walName := by decide
theorem plain_own : ∀ n ∈ ownNames, plain n := by decide
theorem ownNames_wal : walName ∉ ownNames := by decide

theorem locate_coll {cfg : Cfg} (hz : 0 ∉ cfg.disk) {d c : Bytes} (hd : plain d) (hc : plain c) :
    locate cfg.cwd (collPath cfg d c) = diskDir cfg ++ [d, c] := by
  unfold collPath diskDir
  rw [locate_join _ (join_no_zero hz hd.2.2.2.2) hc, locate_join _ hz hd]
  simp

theorem collPath_no_zero {cfg : Cfg} (hz : 0 ∉ cfg.disk) {d c : Bytes} (hd : plain d) (hc : plain c) : 0 ∉ collPath cfg d c :=
  join_no_zero (join_no_zero hz hd.2.2.2.2) hc.2.2.2.2

theorem locate_idx {cfg : Cfg} (hz : 0 ∉ cfg.disk) {d c i : Bytes} (hd : plain d) (hc : plain c) (hi : plain i) :
    locate cfg.cwd (idxPath cfg d c i) = diskDir cfg ++ [d, c, i] := by
  unfold idxPath
  rw [locate_join _ (collPath_no_zero hz hd hc) hi, locate_coll hz hd hc]
  simp

/-- Where things are kept. -/
def place (cfg : Cfg) : Key → Loc
  | .doc d c f => diskDir cfg ++ [d, c, baseIndex, f]
  | .idx d c i f => diskDir cfg ++ [d, c, i, f]
  | .own n => diskDir cfg ++ [n]
  | .log => walDir cfg ++ [walName]

theorem locate_path {cfg : Cfg} (hg : goodCfg cfg) {k : Key} (hk : goodKey k) : locate cfg.cwd (path cfg k) = place cfg k := by
  obtain ⟨hz, hw, -⟩ := hg
  cases k with
  | doc d c f =>
    obtain ⟨hd, hc, hf⟩ := hk
    have := locate_idx (i := baseIndex) hz hd.1 hc plain_baseIndex
    unfold idxPath at this
    simp only [path, place]
    rw [locate_join _ (join_no_zero (collPath_no_zero hz hd.1 hc) plain_baseIndex.2.2.2.2) hf, this]
    simp
  | idx d c i f =>
    obtain ⟨hd, hc, hi, -, hf⟩ := hk
    simp only [path, place]
    rw [locate_join _ _ hf, locate_idx hz hd.1 hc hi]
    · simp
    · exact join_no_zero (collPath_no_zero hz hd.1 hc) hi.2.2.2.2
  | own n => exact locate_join _ hz (plain_own n hk)
  | log => exact locate_join _ hw plain_walName

/-! ### Files -/

theorem get_cons (e : Loc × Bytes) (fs : Fs) (l : Loc) : get (e :: fs) l = if e.1 = l then some e.2 else get fs l := by
  unfold get
  by_cases h : e.1 = l <;> simp [h]

theorem get_filter (P : Loc → Prop) [DecidablePred P] (l : Loc) : ∀ fs : Fs, get (fs.filter fun e => P e.1) l = if P l then get fs l else none
  | [] => by simp [get]
  | e :: fs => by
    by_cases hp : P e.1
    · rw [List.filter_cons_of_pos (by simpa using hp), get_cons, get_cons, get_filter P l fs]
      by_cases he : e.1 = l
      · subst he; simp [hp]
      · simp [he]
    · rw [List.filter_cons_of_neg (by simpa using hp), get_filter P l fs, get_cons]
      by_cases he : e.1 = l
      · subst he; simp [hp]
      · simp [he]

theorem get_put {fs fs' : Fs} {l : Loc} {b : Bytes} (h : put fs l b = .ok fs') (l' : Loc) : get fs' l' = if l = l' then some b else get fs l' := by
  unfold put at h
  split at h
  · cases h
  split at h
  · cases h
  · cases h
    rw [get_cons]
    split
    · rfl
    · rename_i hn
      rw [get_filter (fun x => x ≠ l), if_pos (fun e => hn e.symm)]

theorem put_ok {fs : Fs} {l : Loc} (b : Bytes) (h : ∀ e ∈ fs, e.1 <+: l ∨ l <+: e.1 → e.1 = l) :
    put fs l b = .ok ((l, b) :: fs.filter fun e => e.1 ≠ l) := by
  unfold put
  rw [if_neg, if_neg]
  · simp only [List.any_eq_true, decide_eq_true_eq, not_exists, not_and]
    exact fun e he hp hn => hn (h e he (.inr hp))
  · simp only [List.any_eq_true, decide_eq_true_eq, not_exists, not_and]
    exact fun e he hp hn => hn (h e he (.inl hp))

theorem get_removeDir {fs : Fs} {l : Loc} (h : ∀ e ∈ fs, e.1 ≠ l) (l' : Loc) : get (removeDir fs l) l' = if l <+: l' then none else get fs l' := by
  unfold removeDir
  rw [if_neg]
  · rw [get_filter (fun x => ¬ l <+: x)]
    by_cases hp : l <+: l' <;> simp [hp]
  · simp only [List.any_eq_true, decide_eq_true_eq, not_exists, not_and]
    exact h

theorem mem_removeDir {fs : Fs} {l : Loc} {e : Loc × Bytes} (h : e ∈ removeDir fs l) : e ∈ fs := by
  unfold removeDir at h
  split at h
  · exact h
  · exact (List.mem_filter.1 h).1

/-! ### No file is in the way of another one -/

theorem append_prefix_iff (l a b : Loc) : l ++ a <+: l ++ b ↔ a <+: b := List.prefix_append_right_inj l

/-- A place behind `w` is no place behind `r`, nor above one. -/
theorem apart {r w : Loc} (h1 : ¬ w <+: r) (h2 : ¬ r <+: w) (a b : Loc) : ¬ w ++ a <+: r ++ b := by
  intro h
  have hw : w <+: r ++ b := (List.prefix_append w a).trans h
  rcases List.prefix_or_prefix_of_prefix hw (List.prefix_append r b) with e | e
  · exact h1 e
  · exact h2 e

theorem place_apart {cfg : Cfg} (hg : goodCfg cfg) {k k' : Key} (hk : goodKey k) (hk' : goodKey k') (h : place cfg k <+: place cfg k') : k = k' := by
  obtain ⟨-, -, hw⟩ := hg
  cases k with
  | doc d c f =>
    cases k' with
    | doc d' c' f' =>
      simp only [place, append_prefix_iff, List.cons_prefix_cons] at h
      obtain ⟨rfl, rfl, -, rfl, -⟩ := h; rfl
    | idx d' c' i' f' =>
      simp only [place, append_prefix_iff, List.cons_prefix_cons] at h
      obtain ⟨-, -, h3, -⟩ := h
      exact absurd h3.symm hk'.2.2.2.1
    | own n =>
      simp only [place, append_prefix_iff, List.cons_prefix_cons] at h
      simp at h
    | log =>
      simp only [place] at h
      rcases hw with hw | ⟨h1, h2⟩
      · rw [hw, append_prefix_iff, List.cons_prefix_cons] at h; simp at h
      · exact absurd h (apart h2 h1 _ _)
  | idx d c i f =>
    cases k' with
    | doc d' c' f' =>
      simp only [place, append_prefix_iff, List.cons_prefix_cons] at h
      obtain ⟨-, -, h3, -⟩ := h
      exact absurd h3 hk.2.2.2.1
    | idx d' c' i' f' =>
      simp only [place, append_prefix_iff, List.cons_prefix_cons] at h
      obtain ⟨rfl, rfl, rfl, rfl, -⟩ := h; rfl
    | own n =>
      simp only [place, append_prefix_iff, List.cons_prefix_cons] at h
      simp at h
    | log =>
      simp only [place] at h
      rcases hw with hw | ⟨h1, h2⟩
      · rw [hw, append_prefix_iff, List.cons_prefix_cons] at h; simp at h
      · exact absurd h (apart h2 h1 _ _)
  | own n =>
    cases k' with
    | doc d' c' f' =>
      simp only [place, append_prefix_iff, List.cons_prefix_cons] at h
      exact absurd (h.1 ▸ hk) hk'.1.2.1
    | idx d' c' i' f' =>
      simp only [place, append_prefix_iff, List.cons_prefix_cons] at h
      exact absurd (h.1 ▸ hk) hk'.1.2.1
    | own n' =>
      simp only [place, append_prefix_iff, List.cons_prefix_cons] at h
      rw [h.1]
    | log =>
      simp only [place] at h
      rcases hw with hw | ⟨h1, h2⟩
      · rw [hw, append_prefix_iff, List.cons_prefix_cons] at h
        exact absurd (h.1 ▸ hk) ownNames_wal
      · exact absurd h (apart h2 h1 _ _)
  | log =>
    rcases hw with hw | ⟨h1, h2⟩
    · cases k' with
      | doc d' c' f' =>
        simp only [place, hw, append_prefix_iff, List.cons_prefix_cons] at h
        exact absurd h.1.symm hk'.1.2.2
      | idx d' c' i' f' =>
        simp only [place, hw, append_prefix_iff, List.cons_prefix_cons] at h
        exact absurd h.1.symm hk'.1.2.2
      | own n' =>
        simp only [place, hw, append_prefix_iff, List.cons_prefix_cons] at h
        exact absurd (h.1 ▸ hk') ownNames_wal
      | log => rfl
    · cases k' with
      | log => rfl
      | doc d' c' f' => exact absurd h (apart h1 h2 _ _)
      | idx d' c' i' f' => exact absurd h (apart h1 h2 _ _)
      | own n' => exact absurd h (apart h1 h2 _ _)

/-- What is below the directory of a collection. -/
theorem coll_prefix {cfg : Cfg} (hg : goodCfg cfg) {d c : Bytes} {k : Key} :
    diskDir cfg ++ [d, c] <+: place cfg k ↔ k.ofColl d c := by
  cases k with
  | doc d' c' f =>
    simp only [place, append_prefix_iff, List.cons_prefix_cons, Key.ofColl, List.nil_prefix, and_true]
    exact ⟨fun h => ⟨h.1.symm, h.2.symm⟩, fun h => ⟨h.1.symm, h.2.symm⟩⟩
  | idx d' c' i f =>
    simp only [place, append_prefix_iff, List.cons_prefix_cons, Key.ofColl, List.nil_prefix, and_true]
    exact ⟨fun h => ⟨h.1.symm, h.2.symm⟩, fun h => ⟨h.1.symm, h.2.symm⟩⟩
  | own n =>
    simp only [place, append_prefix_iff, List.cons_prefix_cons, Key.ofColl]
    simp
  | log =>
    simp only [place, Key.ofColl, iff_false]
    rcases hg.2.2 with hw | ⟨h1, h2⟩
    · rw [hw, append_prefix_iff, List.cons_prefix_cons]; simp
    · exact apart h2 h1 _ _

/-- What is below the directory of an index. -/
theorem idx_prefix {cfg : Cfg} (hg : goodCfg cfg) {d c i : Bytes} (hi : i ≠ baseIndex) {k : Key} :
    diskDir cfg ++ [d, c, i] <+: place cfg k ↔ k.ofIdx d c i := by
  cases k with
  | doc d' c' f =>
    simp only [place, append_prefix_iff, List.cons_prefix_cons, Key.ofIdx, List.nil_prefix, and_true, iff_false]
    exact fun h => hi h.2.2
  | idx d' c' i' f =>
    simp only [place, append_prefix_iff, List.cons_prefix_cons, Key.ofIdx, List.nil_prefix, and_true]
    exact ⟨fun h => ⟨h.1.symm, h.2.1.symm, h.2.2.symm⟩, fun h => ⟨h.1.symm, h.2.1.symm, h.2.2.symm⟩⟩
  | own n =>
    simp only [place, append_prefix_iff, List.cons_prefix_cons, Key.ofIdx]
    simp
  | log =>
    simp only [place, Key.ofIdx, iff_false]
    rcases hg.2.2 with hw | ⟨h1, h2⟩
    · rw [hw, append_prefix_iff, List.cons_prefix_cons]; simp
    · exact apart h2 h1 _ _

theorem place_not_outside {cfg : Cfg} {k : Key} : ¬ outside cfg (place cfg k) := by
  rintro ⟨⟨h1, -⟩, h3, -⟩
  cases k with
  | log => exact h3 List.prefix_rfl
  | _ => exact h1 (List.prefix_append _ _)

theorem outside_apart {cfg : Cfg} {l : Loc} (h : outside cfg l) (k : Key) : ¬ l <+: place cfg k ∧ ¬ place cfg k <+: l := by
  obtain ⟨⟨h1, h2⟩, h3, h4⟩ := h
  cases k with
  | log => exact ⟨h4, h3⟩
  | _ =>
    refine ⟨fun e => ?_, fun e => h1 ((List.prefix_append _ _).trans e)⟩
    rcases List.prefix_or_prefix_of_prefix e (List.prefix_append _ _) with e | e
    · exact h2 e
    · exact h1 e

/-! ### Histories -/

/-- Every file is one of the engine or lies outside. -/
def Inv (cfg : Cfg) (fs : Fs) : Prop := ∀ e ∈ fs, (∃ k, goodKey k ∧ e.1 = place cfg k) ∨ outside cfg e.1

theorem step_ok {cfg : Cfg} (hg : goodCfg cfg) {fs : Fs} (hi : Inv cfg fs) {c : Call} (hc : goodCall c) :
    ∃ fs', step cfg fs c = .ok fs' ∧ Inv cfg fs' ∧ (∀ k, goodKey k → get fs' (place cfg k) = after k (get fs (place cfg k)) c) ∧
      ∀ l, outside cfg l → get fs' l = get fs l := by
  cases c with
  | save k b =>
    have hk : goodKey k := hc
    have hput := put_ok (fs := fs) (l := place cfg k) b (by
      intro e he hp
      rcases hi e he with ⟨k', hk', e'⟩ | ho
      · rw [e'] at hp ⊢
        rcases hp with hp | hp
        · rw [place_apart hg hk' hk hp]
        · rw [place_apart hg hk hk' hp]
      · rcases hp with hp | hp
        · exact absurd hp (outside_apart ho k).1
        · exact absurd hp (outside_apart ho k).2)
    refine ⟨_, by rw [step, locate_path hg hk, hput], ?_, ?_, ?_⟩
    · intro e he
      rcases List.mem_cons.1 he with rfl | he
      · exact .inl ⟨k, hk, rfl⟩
      · exact hi e (List.mem_filter.1 he).1
    · intro k' hk'
      rw [get_put hput, after]
      by_cases e : k = k'
      · subst e; simp
      · rw [if_neg e, if_neg]
        exact fun h => e (place_apart hg hk hk' (h ▸ List.prefix_rfl))
    · intro l hl
      rw [get_put hput, if_neg]
      exact fun h => place_not_outside (h ▸ hl)
  | dropColl d c =>
    obtain ⟨hd, hc⟩ := hc
    have hne : ∀ e ∈ fs, e.1 ≠ diskDir cfg ++ [d, c] := by
      intro e he h
      rcases hi e he with ⟨k, hk, e'⟩ | ho
      · have hp : diskDir cfg ++ [d, c] <+: place cfg k := by rw [← e', h]; exact List.prefix_rfl
        have := (coll_prefix hg).1 hp
        rw [e'] at h
        cases k with
        | doc d' c' f => simp [place] at h
        | idx d' c' i f => simp [place] at h
        | own n => exact this
        | log => exact this
      · exact ho.1.1 (h ▸ List.prefix_append _ _)
    refine ⟨_, by rw [step, locate_coll hg.1 hd.1 hc], fun e he => hi e (mem_removeDir he), ?_, ?_⟩
    · intro k hk
      rw [get_removeDir hne, after]
      simp only [coll_prefix hg]
    · intro l hl
      rw [get_removeDir hne, if_neg]
      exact fun h => hl.1.1 ((List.prefix_append _ _).trans h)
  | dropIdx d c i =>
    obtain ⟨hd, hc, hip, hib⟩ := hc
    have hne : ∀ e ∈ fs, e.1 ≠ diskDir cfg ++ [d, c, i] := by
      intro e he h
      rcases hi e he with ⟨k, hk, e'⟩ | ho
      · have hp : diskDir cfg ++ [d, c, i] <+: place cfg k := by rw [← e', h]; exact List.prefix_rfl
        have := (idx_prefix hg hib).1 hp
        rw [e'] at h
        cases k with
        | idx d' c' i f => simp [place] at h
        | _ => exact this
      · exact ho.1.1 (h ▸ List.prefix_append _ _)
    refine ⟨_, by rw [step, locate_idx hg.1 hd.1 hc hip], fun e he => hi e (mem_removeDir he), ?_, ?_⟩
    · intro k hk
      rw [get_removeDir hne, after]
      simp only [idx_prefix hg hib]
    · intro l hl
      rw [get_removeDir hne, if_neg]
      exact fun h => hl.1.1 ((List.prefix_append _ _).trans h)

theorem run_ok {cfg : Cfg} (hg : goodCfg cfg) : ∀ (h : List Call) (fs : Fs), Inv cfg fs → (∀ c ∈ h, goodCall c) →
    ∃ fs', run cfg fs h = .ok fs' ∧ Inv cfg fs' ∧ (∀ k, goodKey k → get fs' (place cfg k) = h.foldl (after k) (get fs (place cfg k))) ∧
      ∀ l, outside cfg l → get fs' l = get fs l
  | [], fs, hi, _ => ⟨fs, rfl, hi, fun _ _ => rfl, fun _ _ => rfl⟩
  | c :: h, fs, hi, hc => by
    obtain ⟨fs1, e1, hi1, hk1, ho1⟩ := step_ok hg hi (hc c (by simp))
    obtain ⟨fs2, e2, hi2, hk2, ho2⟩ := run_ok hg h fs1 hi1 fun c' hc' => hc c' (by simp [hc'])
    refine ⟨fs2, by rw [run, e1]; exact e2, hi2, ?_, fun l hl => (ho2 l hl).trans (ho1 l hl)⟩
    intro k hk
    rw [hk2 k hk, hk1 k hk]
    rfl

theorem get_none {fs : Fs} {l : Loc} (h : ∀ e ∈ fs, e.1 ≠ l) : get fs l = none := by
  unfold get
  rw [List.find?_eq_none.2]
  · rfl
  · intro e he
    simpa using h e he

end Verif.Place
