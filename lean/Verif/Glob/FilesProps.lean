import Verif.Glob.FilesLemmas
/-!
C112: a search for files by a pattern of paths finds exactly the files that fit it.
-/
namespace Verif.Glob

theorem fitsPath_ne {ps ns : List Name} (h : FitsPath ps ns) : ns ≠ [] := by
  induction h with
  | last _ _ => simp
  | under h => exact h
  | part _ _ _ _ => simp
  | crawl ds _ ih => simp [ih]

theorem found_iff (es : Ents) (ps ns : List Name) : Found es ps ns ↔
    FitsPath ps ns ∧ ∃ t, look (some es) ns = some t ∧ (t = none ∨ ∃ p, ps.getLast? = some p ∧ ¬ Special p) := by
  unfold Found
  constructor
  · rintro ⟨h, h2⟩
    refine ⟨h, ?_⟩
    rcases h2 with h2 | ⟨h2, h3⟩
    · exact ⟨none, (look_file es ns).2 h2, Or.inl rfl⟩
    · obtain ⟨s, hs⟩ := (look_dir es ns (fitsPath_ne h)).2 h2
      exact ⟨some s, hs, Or.inr h3⟩
  · rintro ⟨h, t, h2, h3⟩
    refine ⟨h, ?_⟩
    cases t with
    | none => exact Or.inl ((look_file es ns).1 h2)
    | some s => exact Or.inr ⟨(look_dir es ns (fitsPath_ne h)).1 ⟨s, h2⟩, h3.resolve_left (by simp)⟩

theorem mem_fetch (es : Ents) (b : Bool) (ps : List Name) (h : ∀ p ∈ ps, Part p) (ns : List Name) :
    ns ∈ fetch es (text b ps) ↔ ns = ps ∧ IsFile es ps := by
  unfold fetch isFile
  rw [names_text b ps h]
  cases e : look (some es) ps with
  | none =>
    rw [← look_file, e]
    simp
  | some t =>
    rw [← look_file, e]
    cases t with
    | none => simp
    | some s => simp

theorem text_ne (b : Bool) (p : Name) (ps : List Name) (hp : Part p) : text b (p :: ps) ≠ [] := by
  cases b with
  | true => simp [text]
  | false => exact (head_joined p ps hp).2

theorem right_of (d : Disk) (b : Bool) (ps : List Name) (h : ∀ p ∈ ps, Part p) (m : Option (List (List Name)))
    (hs : search d (text b ps) = match m with | none => fetch (d.start b) (text b ps) | some r => r)
    (h1 : ∀ ns, (∃ r, m = some r ∧ ns ∈ r) ↔ Found (d.start b) ps ns) (h2 : ∀ r, m = some r → r ≠ []) : FindsRight d b ps := by
  intro ns
  rw [hs]
  cases m with
  | none =>
    have no : ∀ ms, ¬ Found (d.start b) ps ms := by
      intro ms hm
      obtain ⟨r, e, _⟩ := (h1 ms).2 hm
      exact absurd e (by simp)
    rw [mem_fetch _ b ps h]
    exact ⟨fun h => Or.inr ⟨no, h⟩, fun h => h.elim (fun h => absurd h (no ns)) (fun h => h.2)⟩
  | some r =>
    constructor
    · intro h; exact Or.inl ((h1 ns).1 ⟨r, rfl, h⟩)
    · rintro (h | ⟨h, _⟩)
      · obtain ⟨r2, e, h⟩ := (h1 ns).2 h
        injection e with e
        exact e ▸ h
      · obtain ⟨x, hx⟩ := List.exists_mem_of_ne_nil r (h2 r rfl)
        exact absurd ((h1 x).1 ⟨r, rfl, hx⟩) (h x)

theorem stage_start (es : Ents) (p : Name) (last : Bool) (h : Special p ∨ last = false) (hc : p = [42, 42] → last = true) :
    stage es [] p last = stage es [[]] p last := by
  unfold stage
  by_cases hg : hasGlob p = false
  · have : last = false := h.resolve_left ((hasGlob_false_iff p).1 hg)
    subst this
    rw [if_pos hg, if_pos hg]
    rfl
  · rw [if_neg hg, if_neg hg]
    by_cases e : p = crawlPart
    · have := hc e
      subst this
      rw [if_pos e, if_pos e]
      simp
    · rw [if_neg e, if_neg e]
      simp

/-- C112: this is what a search is to find, for all directories and all patterns. -/
def C112_search_claim : Prop := ∀ (d : Disk) (absolute : Bool) (p : Name) (ps : List Name), Distinct (d.start absolute) → (∀ q ∈ p :: ps, Part q) →
  (∃ q ∈ p :: ps, Special q) → FindsRight d absolute (p :: ps)

/-- C112: with at most one `**`, and if the first part of an absolute pattern is a plain name and that of another pattern is neither `**` with
parts behind it, nor has a colon in it (nor is `~`, which is not modelled), then for all directories and all such patterns of any number of
parts the search finds exactly what fits; if nothing does it finds the file with the text of the pattern as its path. -/
theorem C112_search_partial (d : Disk) (absolute : Bool) (p : Name) (ps : List Name) (hd : Distinct (d.start absolute))
    (h : ∀ q ∈ p :: ps, Part q) (hs : ∃ q ∈ p :: ps, Special q) (hc : (p :: ps).count [42, 42] ≤ 1)
    (ha : absolute = true → ¬ Special p) (hr : absolute = false → 58 ∉ p ∧ p ≠ [126] ∧ (p = [42, 42] → ps = [])) :
    FindsRight d absolute (p :: ps) := by
  have hp := h p (by simp)
  have hg : hasGlob (text absolute (p :: ps)) ≠ false := by
    rw [(special_text absolute (p :: ps)).2 hs]; simp
  have hne : ¬ (text absolute (p :: ps)).isEmpty = true := fun e => text_ne absolute p ps hp (List.isEmpty_iff.mp e)
  cases absolute with
  | false =>
    obtain ⟨h58, _, hcr⟩ := hr rfl
    have hcut : cut false [] [] (text false (p :: ps)) = p :: ps := by
      show cut false [] [] (joined (p :: ps)) = _
      rw [cut_first p ps h]
      split
      · rename_i e; rw [e]
      · rfl
    have habs : ((text false (p :: ps)).head? == some 47 || ((p :: ps).headD []).contains 58) = false := by
      rw [Bool.or_eq_false_iff]
      refine ⟨?_, ?_⟩
      · rw [beq_eq_false_iff_ne]
        exact (head_joined p ps hp).1
      · show p.contains 58 = false
        rw [Bool.eq_false_iff]
        intro e
        exact h58 (by simpa using e)
    have hstart : parts (d.start false) (p :: ps) [] = parts (d.start false) (p :: ps) [[]] := by
      unfold parts
      rw [stage_start]
      · obtain ⟨q, hq, hq2⟩ := hs
        cases ps with
        | nil => rw [List.mem_singleton] at hq; exact Or.inl (hq ▸ hq2)
        | cons _ _ => exact Or.inr rfl
      · intro e
        rw [hcr e]
        rfl
    refine right_of d false _ h (parts (d.start false) (p :: ps) [[]]) ?_ ?_ (fun r => parts_ne _ _ (by simp) _ r)
    · unfold search
      rw [if_neg hne]
      simp only
      rw [if_neg hg, hcut, base_text d false p ps hp, if_neg (by unfold crawlPart; omega), habs, ← hstart]
      rfl
    · intro ns
      rw [parts_iff _ hd _ (by simp) _ (by simp), found_iff]
      simp
  | true =>
    have hpl := ha rfl
    have hps : ps ≠ [] := by
      intro e
      subst e
      obtain ⟨q, hq, hq2⟩ := hs
      rw [List.mem_singleton] at hq
      exact hpl (hq ▸ hq2)
    have hpc : p ≠ [42, 42] := fun e => hpl (e ▸ special_crawl)
    have hcut : cut false [] [] (text true (p :: ps)) = (47 :: p) :: ps := by
      show cut false [] [] (47 :: joined (p :: ps)) = _
      rw [cut, if_pos (Or.inr rfl)]
      show cut false [47] [] (joined (p :: ps)) = _
      rw [cut_first p ps h, if_neg hps]
      rfl
    have hcount : ¬ ((47 :: p) :: ps).count crawlPart > 1 := by
      have e1 : ((47 :: p) :: ps).count crawlPart = ps.count crawlPart := List.count_cons_of_ne (by intro e; injection e with e; exact absurd e (by decide))
      have e2 : (p :: ps).count [42, 42] = ps.count [42, 42] := List.count_cons_of_ne hpc
      rw [e1]
      unfold crawlPart
      omega
    refine right_of d true _ h (parts (d.start true) ps [[p]]) ?_ ?_ (fun r => parts_ne _ _ hps _ r)
    · unfold search
      rw [if_neg hne]
      simp only
      rw [if_neg hg, hcut, base_text d true p ps hp, if_neg hcount]
      have e : names [] (47 :: p) = [p] := names_text true [p] (fun q hq => by rw [List.mem_singleton] at hq; exact hq ▸ hp)
      show (match parts (d.start true) ps [names [] (47 :: p)] with | none => _ | some r => r) = _
      rw [e]
    · intro ns
      rw [parts_iff _ hd _ hps _ (by simp), found_iff]
      have hl : (p :: ps).getLast? = ps.getLast? := by
        cases ps with
        | nil => exact absurd rfl hps
        | cons q ps => simp [List.getLast?_cons_cons]
      rw [hl]
      constructor
      · rintro ⟨x, hx, ms, e, hm, ht⟩
        rw [List.mem_singleton] at hx
        rw [e, hx] at ht ⊢
        exact ⟨.part hpc (Or.inr ⟨hpl, rfl⟩) hm, ht⟩
      · rintro ⟨hm, ht⟩
        cases hm with
        | last _ _ => exact absurd rfl hps
        | under _ => exact absurd rfl hps
        | crawl _ _ => exact absurd rfl hpc
        | @part _ n _ ms _ hf hm =>
          have : n = p := by
            rcases hf with ⟨h, _⟩ | ⟨_, h⟩
            · exact absurd h hpl
            · exact h
          exact ⟨[p], by simp, ms, by rw [this]; rfl, hm, ht⟩

/-- C112: a path without special characters finds the regular file of that path, if there is one, and nothing else. -/
theorem C112_plain (d : Disk) (absolute : Bool) (p : Name) (ps : List Name) (h : ∀ q ∈ p :: ps, Part q) (hs : ∀ q ∈ p :: ps, ¬ Special q)
    (_hh : p ≠ [126]) (ns : List Name) :
    ns ∈ search d (text absolute (p :: ps)) ↔ ns = p :: ps ∧ IsFile (d.start absolute) (p :: ps) := by
  have hp := h p (by simp)
  have hg : hasGlob (text absolute (p :: ps)) = false := by
    rw [Bool.eq_false_iff]
    intro e
    obtain ⟨q, hq, hq2⟩ := (special_text absolute (p :: ps)).1 e
    exact hs q hq hq2
  unfold search
  rw [if_neg (fun e => text_ne absolute p ps hp (List.isEmpty_iff.mp e))]
  simp only
  rw [if_pos hg, base_text d absolute p ps hp, mem_fetch _ absolute _ h]

theorem parts_real (es : Ents) (hd : Distinct es) (L : List Name) (prev r : List (List Name)) (ns : List Name) (h : parts es L prev = some r)
    (hn : ns ∈ r) (ho : prev ≠ [] ∨ ∀ q, L = [q] → Special q) : IsFile es ns ∨ IsDir es ns := by
  induction L generalizing prev with
  | nil =>
    injection h with h
    rw [← h] at hn
    exact absurd hn (by simp)
  | cons q L ih =>
    cases L with
    | nil =>
      have hst : ∃ prev2, prev2 ≠ [] ∧ ns ∈ stage es prev2 q true := by
        have hm : ns ∈ stage es prev q true := by
          unfold parts at h
          split at h
          · exact absurd h (by simp)
          · injection h with h
            rw [← h] at hn
            exact hn
        by_cases hp : prev = []
        · subst hp
          refine ⟨[[]], by simp, ?_⟩
          rw [← stage_start es q true (Or.inl ((ho.resolve_left (fun h => h rfl)) q rfl)) (fun _ => rfl)]
          exact hm
        · exact ⟨prev, hp, hm⟩
      obtain ⟨prev2, hp, hm⟩ := hst
      obtain ⟨x, _, ms, e, hf, u, hu, _⟩ := (stage_last es hd prev2 hp q ns).1 hm
      have hne : ns ≠ [] := by rw [e]; simp [fitsPath_ne hf]
      cases u with
      | none => exact Or.inl ((look_file es ns).1 hu)
      | some s => exact Or.inr ((look_dir es ns hne).1 ⟨s, hu⟩)
    | cons q2 L =>
      unfold parts at h
      split at h
      · exact absurd h (by simp)
      · rename_i e
        exact ih _ h (Or.inl fun e2 => e (by rw [List.isEmpty_iff]; exact e2))

/-- C112: whatever the pattern, also those for which the claim fails, what is found is there: a file or a directory. -/
theorem C112_real (d : Disk) (absolute : Bool) (p : Name) (ps : List Name) (hd : Distinct d.root ∧ Distinct d.cwd) (h : ∀ q ∈ p :: ps, Part q)
    (ns : List Name) (hn : ns ∈ search d (text absolute (p :: ps))) : IsFile (d.start absolute) ns ∨ IsDir (d.start absolute) ns := by
  have hp := h p (by simp)
  have hfetch : ns ∈ fetch (d.base (text absolute (p :: ps))) (text absolute (p :: ps)) → IsFile (d.start absolute) ns ∨ IsDir (d.start absolute) ns := by
    intro hm
    rw [base_text d absolute p ps hp, mem_fetch _ absolute _ h] at hm
    exact Or.inl (hm.1 ▸ hm.2)
  unfold search at hn
  rw [if_neg (fun e => text_ne absolute p ps hp (List.isEmpty_iff.mp e))] at hn
  simp only at hn
  split at hn
  · exact hfetch hn
  · rename_i hg
    rw [Bool.not_eq_false] at hg
    split at hn
    · exact absurd hn (by simp)
    · split at hn
      · exact hfetch hn
      · rename_i r hr
        cases absolute with
        | true =>
          have hcut : cut false [] [] (text true (p :: ps)) = if ps = [] then [p] else (47 :: p) :: ps := by
            show cut false [] [] (47 :: joined (p :: ps)) = _
            rw [cut, if_pos (Or.inr rfl)]
            show cut false [47] [] (joined (p :: ps)) = _
            rw [cut_first p ps h]
            rfl
          rw [hcut] at hr
          by_cases e : ps = []
          · subst e
            have : r = [] := (Option.some.inj hr).symm
            rw [this] at hn
            exact absurd hn (by simp)
          · rw [if_neg e] at hr
            exact parts_real _ hd.1 _ _ r ns hr hn (Or.inl (by simp [text]))
        | false =>
          have hcut : cut false [] [] (text false (p :: ps)) = p :: ps := by
            show cut false [] [] (joined (p :: ps)) = _
            rw [cut_first p ps h]
            split
            · rename_i e; rw [e]
            · rfl
          rw [hcut] at hr
          have hb : (if ((text false (p :: ps)).head? == some 47 || ((p :: ps).headD []).contains 58) = true then d.base ((p :: ps).headD []) else d.cwd) = d.cwd := by
            split
            · unfold Disk.base
              exact if_neg (head_joined p [] hp).1
            · rfl
          rw [hb] at hr
          refine parts_real d.cwd hd.2 _ _ r ns hr hn ?_
          split
          · exact Or.inl (by simp)
          · refine Or.inr ?_
            intro q hq
            obtain ⟨x, hx, hx2⟩ := (special_text false (p :: ps)).1 hg
            rw [hq, List.mem_singleton] at hx
            exact hx ▸ hx2

/-- The directory with the directory `b`, in which there is a file `x`, and a file `x`. -/
def small : Ents := .dir [98] (.file [120] .nil) (.file [120] .nil)

theorem small_distinct : Distinct small := by simp [Distinct, small, Ents.list]

example : [[98], [120]] ∈ search ⟨small, small⟩ (text false [[42, 42], [120]]) := by decide +kernel

/-- C112: a pattern for files in the root, as `/*.txt`, finds nothing whatever is there. -/
theorem C112_root_fails (d : Disk) (p : Name) (hp : Part p) (hs : Special p) : search d (text true [p]) = [] := by
  have hg : hasGlob (text true [p]) ≠ false := by
    rw [(special_text true [p]).2 ⟨p, by simp, hs⟩]; simp
  have hcut : cut false [] [] (text true [p]) = [p] := by
    show cut false [] [] (47 :: joined [p]) = _
    rw [cut, if_pos (Or.inr rfl)]
    show cut false [47] [] (joined [p]) = _
    rw [cut_first p [] (by intro q hq; rw [List.mem_singleton] at hq; exact hq ▸ hp), if_pos rfl]
  unfold search
  rw [if_neg (fun e => text_ne true p [] hp (List.isEmpty_iff.mp e))]
  simp only
  rw [if_neg hg, hcut]
  split
  · rfl
  · rfl

/-- C112: `/b*/x` does not find `/b/x`, while `b*/x` finds `b/x`: patterns in the first part of an absolute path are not looked at. -/
theorem C112_absolute_fails : search ⟨small, small⟩ (text true [[98, 42], [120]]) = [] ∧
    search ⟨small, small⟩ (text false [[98, 42], [120]]) = [[[98], [120]]] := by decide +kernel

/-- C112: `**/x` does not find `x` in the directory of the process, only those below it. -/
theorem C112_crawl_fails : search ⟨small, small⟩ (text false [[42, 42], [120]]) = [[[98], [120]]] := by decide +kernel

/-- C112: with `**` twice nothing is found. -/
theorem C112_two_crawls_fails : search ⟨small, small⟩ (text false [[98], [42, 42], [42, 42], [120]]) = [] := by decide +kernel

/-- C112: `[a:x]` finds nothing, while `[ax]` finds `x`: a text with a colon is taken for a Windows path. -/
theorem C112_colon_fails : search ⟨small, small⟩ (text false [[91, 97, 58, 120, 93]]) = [] ∧
    search ⟨small, small⟩ (text false [[91, 97, 120, 93]]) = [[[120]]] := by decide +kernel

theorem part_of {p : Name} (h : p ≠ [] ∧ p ≠ [46] ∧ p ≠ [46, 46] ∧ 47 ∉ p ∧ 92 ∉ p) : Part p := h

/-- C112: so the claim fails. -/
theorem C112_fails : ¬ C112_search_claim := by
  intro h
  have := h ⟨small, small⟩ false [42, 42] [[120]] small_distinct
    (by intro q hq; simp only [List.mem_cons, List.not_mem_nil, or_false] at hq; rcases hq with rfl | rfl <;> exact part_of (by decide))
    ⟨[42, 42], by simp, special_crawl⟩ [[120]]
  rw [C112_crawl_fails] at this
  have hf : Found (Disk.start ⟨small, small⟩ false) [[42, 42], [120]] [[120]] :=
    ⟨.crawl [] (.last (by decide) (Or.inr ⟨by unfold Special; decide, rfl⟩)), Or.inl (.here (by simp [Disk.start, small, Ents.find]))⟩
  exact absurd (this.2 (Or.inl hf)) (by decide)

/-- The hypotheses of `C112_search_partial` are met by `b*/**`, and `b/x` is found. -/
example : FindsRight ⟨small, small⟩ false [[98, 42], [42, 42]] :=
  C112_search_partial _ false _ _ small_distinct
    (by intro q hq; simp only [List.mem_cons, List.not_mem_nil, or_false] at hq; rcases hq with rfl | rfl <;> exact part_of (by decide))
    ⟨[42, 42], by simp, special_crawl⟩ (by decide) (by simp) (fun _ => ⟨by decide, by decide, by decide⟩)

example : search ⟨small, small⟩ (text false [[98, 42], [42, 42]]) = [[[98], [120]]] := by decide +kernel

/-- And by `/b/?`. -/
example : FindsRight ⟨small, small⟩ true [[98], [63]] :=
  C112_search_partial _ true _ _ small_distinct
    (by intro q hq; simp only [List.mem_cons, List.not_mem_nil, or_false] at hq; rcases hq with rfl | rfl <;> exact part_of (by decide))
    ⟨[63], by simp, Or.inr (Or.inl (by simp))⟩ (by decide) (fun _ => by unfold Special; decide) (by simp)

/-- And those of `C112_plain` by `b/x`. -/
example : search ⟨small, small⟩ (text false [[98], [120]]) = [[[98], [120]]] := by decide +kernel

end Verif.Glob
