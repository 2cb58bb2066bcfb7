import Verif.Glob.FilesSpec
import Verif.Glob.Props
/-! Lemmas about the search for files. -/
namespace Verif.Glob

theorem hasGlob_iff (p : Name) : hasGlob p = true ↔ Special p := by
  unfold hasGlob Special
  rw [List.any_eq_true]
  constructor
  · rintro ⟨c, h, e⟩
    simp only [Bool.or_eq_true, beq_iff_eq] at e
    rcases e with (e | e) | e
    · exact Or.inl (e ▸ h)
    · exact Or.inr (Or.inl (e ▸ h))
    · exact Or.inr (Or.inr (e ▸ h))
  · rintro (h | h | h)
    · exact ⟨_, h, rfl⟩
    · exact ⟨_, h, rfl⟩
    · exact ⟨_, h, rfl⟩

theorem hasGlob_false_iff (p : Name) : hasGlob p = false ↔ ¬ Special p := by
  rw [← hasGlob_iff, Bool.not_eq_true]

theorem special_crawl : Special [42, 42] := Or.inl (by simp)

theorem look_cons (es : Ents) (n : Name) (ns : List Name) :
    look (some es) (n :: ns) = match es.find n with
      | none => none
      | some t => look t ns := rfl

theorem look_append (t : Option Ents) (a b : List Name) : look t (a ++ b) = (look t a).bind (fun u => look u b) := by
  induction a generalizing t with
  | nil => cases t <;> rfl
  | cons n a ih =>
    cases t with
    | none => rfl
    | some es =>
      show look (some es) (n :: (a ++ b)) = _
      rw [look_cons, look_cons]
      cases es.find n with
      | none => rfl
      | some u => exact ih u

theorem look_file (es : Ents) (ns : List Name) : look (some es) ns = some none ↔ IsFile es ns := by
  induction ns generalizing es with
  | nil =>
    constructor
    · intro h; simp [look] at h
    · intro h; cases h
  | cons n ns ih =>
    unfold look
    constructor
    · intro h
      cases e : es.find n with
      | none => rw [e] at h; exact absurd h (by simp)
      | some t =>
        rw [e] at h
        cases t with
        | none =>
          cases ns with
          | nil => exact .here e
          | cons m ns => exact absurd h (by simp [look])
        | some s => exact .deeper e ((ih s).1 h)
    · intro h
      cases h with
      | here e => rw [e]; rfl
      | deeper e h => rw [e]; exact (ih _).2 h

theorem look_dir (es : Ents) (ns : List Name) (hn : ns ≠ []) : (∃ s, look (some es) ns = some (some s)) ↔ IsDir es ns := by
  induction ns generalizing es with
  | nil => exact absurd rfl hn
  | cons n ns ih =>
    unfold look
    constructor
    · rintro ⟨s, h⟩
      cases e : es.find n with
      | none => rw [e] at h; exact absurd h (by simp)
      | some t =>
        rw [e] at h
        cases t with
        | none =>
          cases ns with
          | nil => exact absurd h (by simp [look])
          | cons m ns => exact absurd h (by simp [look])
        | some s =>
          cases ns with
          | nil => exact .here e
          | cons m ns => exact .deeper e ((ih s (by simp)).1 ⟨_, h⟩)
    · intro h
      cases h with
      | here e => rw [e]; exact ⟨_, rfl⟩
      | deeper e h =>
        rw [e]
        refine (ih _ ?_).2 h
        intro e; subst e; cases h

theorem find_none (es : Ents) (n : Name) (h : n ∉ es.list.map Prod.fst) : es.find n = none := by
  induction es with
  | nil => rfl
  | file m r ih =>
    simp only [Ents.list, List.map_cons, List.mem_cons, not_or] at h
    unfold Ents.find
    rw [if_neg (fun e => h.1 e.symm)]
    exact ih h.2
  | dir m s r _ ih =>
    simp only [Ents.list, List.map_cons, List.mem_cons, not_or] at h
    unfold Ents.find
    rw [if_neg (fun e => h.1 e.symm)]
    exact ih h.2

theorem list_find (es : Ents) (hd : Distinct es) (n : Name) (b : Bool) : (n, b) ∈ es.list ↔ ∃ t, es.find n = some t ∧ t.isSome = b := by
  induction es with
  | nil => simp [Ents.list, Ents.find]
  | file m r ih =>
    unfold Ents.list Ents.find
    rw [List.mem_cons]
    by_cases e : m = n
    · rw [if_pos e]
      constructor
      · rintro (h | h)
        · injection h with _ h; exact ⟨none, rfl, h.symm⟩
        · exact absurd (List.mem_map_of_mem (f := Prod.fst) h) (e ▸ hd.1)
      · rintro ⟨t, h1, h2⟩
        injection h1 with h1
        subst h1
        exact Or.inl (by rw [e, ← h2]; rfl)
    · rw [if_neg e, ← ih hd.2]
      constructor
      · rintro (h | h)
        · injection h with h _; exact absurd h.symm e
        · exact h
      · exact Or.inr
  | dir m s r _ ih =>
    unfold Ents.list Ents.find
    rw [List.mem_cons]
    by_cases e : m = n
    · rw [if_pos e]
      constructor
      · rintro (h | h)
        · injection h with _ h; exact ⟨some s, rfl, h.symm⟩
        · exact absurd (List.mem_map_of_mem (f := Prod.fst) h) (e ▸ hd.1)
      · rintro ⟨t, h1, h2⟩
        injection h1 with h1
        subst h1
        exact Or.inl (by rw [e, ← h2]; rfl)
    · rw [if_neg e, ← ih hd.2.2]
      constructor
      · rintro (h | h)
        · injection h with h _; exact absurd h.symm e
        · exact h
      · exact Or.inr

theorem find_distinct (es : Ents) (hd : Distinct es) (n : Name) (s : Ents) (h : es.find n = some (some s)) : Distinct s := by
  induction es with
  | nil => exact absurd h (by simp [Ents.find])
  | file m r ih =>
    unfold Ents.find at h
    split at h
    · exact absurd h (by simp)
    · exact ih hd.2 h
  | dir m s2 r _ ih =>
    unfold Ents.find at h
    split at h
    · injection h with h; injection h with h; exact h ▸ hd.2.1
    · exact ih hd.2.2 h

theorem look_distinct (es : Ents) (hd : Distinct es) (ns : List Name) (s : Ents) (h : look (some es) ns = some (some s)) : Distinct s := by
  induction ns generalizing es with
  | nil => injection h with h; injection h with h; exact h ▸ hd
  | cons n ns ih =>
    unfold look at h
    cases e : es.find n with
    | none => rw [e] at h; exact absurd h (by simp)
    | some t =>
      rw [e] at h
      cases t with
      | none =>
        cases ns with
        | nil => exact absurd h (by simp [look])
        | cons m ns => exact absurd h (by simp [look])
      | some s2 => exact ih s2 (find_distinct es hd n s2 e) h

/-- What the recursion lists: all that is below and of the kind asked for. -/
theorem mem_crawl (md : Bool) (es : Ents) (hd : Distinct es) (pre ns : List Name) : ns ∈ crawl md pre es ↔
    ∃ ds t, ds ≠ [] ∧ ns = pre ++ ds ∧ look (some es) ds = some t ∧ t.isSome = md := by
  induction es generalizing pre with
  | nil =>
    simp only [crawl, List.not_mem_nil, false_iff]
    rintro ⟨ds, t, h1, _, h2, _⟩
    cases ds with
    | nil => exact h1 rfl
    | cons n ds => simp [look, Ents.find] at h2
  | file m r ih =>
    unfold crawl
    rw [List.mem_append, ih hd.2]
    constructor
    · rintro (h | ⟨ds, t, h1, h2, h3, h4⟩)
      · split at h
        · rename_i e
          rw [List.mem_singleton] at h
          exact ⟨[m], none, by simp, h, by simp [look, Ents.find], e.symm⟩
        · exact absurd h (by simp)
      · refine ⟨ds, t, h1, h2, ?_, h4⟩
        cases ds with
        | nil => exact absurd rfl h1
        | cons n ds =>
          unfold look at h3 ⊢
          have : m ≠ n := by
            intro e
            rw [find_none r n (e ▸ hd.1)] at h3
            exact absurd h3 (by simp)
          unfold Ents.find
          rw [if_neg this]
          exact h3
    · rintro ⟨ds, t, h1, h2, h3, h4⟩
      cases ds with
      | nil => exact absurd rfl h1
      | cons n ds =>
        unfold look Ents.find at h3
        by_cases e : m = n
        · rw [if_pos e] at h3
          left
          cases ds with
          | nil =>
            simp only [look, Option.some.injEq] at h3
            subst h3
            rw [h2, e, ← h4]
            simp
          | cons k ds => exact absurd h3 (by simp [look])
        · rw [if_neg e] at h3
          right
          refine ⟨n :: ds, t, h1, h2, ?_, h4⟩
          unfold look
          exact h3
  | dir m s r ihs ih =>
    unfold crawl
    rw [List.mem_append, List.mem_append, ih hd.2.2, ihs hd.2.1]
    constructor
    · rintro ((h | ⟨ds, t, h1, h2, h3, h4⟩) | ⟨ds, t, h1, h2, h3, h4⟩)
      · split at h
        · rename_i e
          rw [List.mem_singleton] at h
          exact ⟨[m], some s, by simp, h, by simp [look, Ents.find], e.symm⟩
        · exact absurd h (by simp)
      · refine ⟨m :: ds, t, by simp, by rw [h2]; simp, ?_, h4⟩
        unfold look Ents.find
        rw [if_pos rfl]
        exact h3
      · refine ⟨ds, t, h1, h2, ?_, h4⟩
        cases ds with
        | nil => exact absurd rfl h1
        | cons n ds =>
          unfold look at h3 ⊢
          have : m ≠ n := by
            intro e
            rw [find_none r n (e ▸ hd.1)] at h3
            exact absurd h3 (by simp)
          unfold Ents.find
          rw [if_neg this]
          exact h3
    · rintro ⟨ds, t, h1, h2, h3, h4⟩
      cases ds with
      | nil => exact absurd rfl h1
      | cons n ds =>
        unfold look Ents.find at h3
        by_cases e : m = n
        · rw [if_pos e] at h3
          left
          cases ds with
          | nil =>
            left
            simp only [look, Option.some.injEq] at h3
            subst h3
            rw [h2, e, ← h4]
            simp
          | cons k ds =>
            right
            exact ⟨k :: ds, t, by simp, by rw [h2, e]; simp, h3, h4⟩
        · rw [if_neg e] at h3
          right
          refine ⟨n :: ds, t, h1, h2, ?_, h4⟩
          unfold look
          exact h3

theorem mem_crawlIn (es : Ents) (hd : Distinct es) (md : Bool) (d ns : List Name) : ns ∈ crawlIn es md d ↔
    ∃ ds t, ds ≠ [] ∧ ns = d ++ ds ∧ look (some es) ns = some t ∧ t.isSome = md := by
  unfold crawlIn
  constructor
  · intro h
    split at h
    · rename_i sub e
      obtain ⟨ds, t, h1, h2, h3, h4⟩ := (mem_crawl md sub (look_distinct es hd d sub e) d ns).1 h
      exact ⟨ds, t, h1, h2, by rw [h2, look_append, e]; exact h3, h4⟩
    · exact absurd h (by simp)
  · rintro ⟨ds, t, h1, h2, h3, h4⟩
    rw [h2, look_append] at h3
    cases e : look (some es) d with
    | none => rw [e] at h3; exact absurd h3 (by simp)
    | some u =>
      rw [e] at h3
      cases u with
      | none =>
        cases ds with
        | nil => exact absurd rfl h1
        | cons n ds => exact absurd h3 (by simp [look])
      | some sub => exact (mem_crawl md sub (look_distinct es hd d sub e) d ns).2 ⟨ds, t, h1, h2, h3, h4⟩

theorem mem_globIn (es : Ents) (hd : Distinct es) (md : Bool) (p : Name) (d ns : List Name) : ns ∈ globIn es md p d ↔
    ∃ n t, glob true n p = true ∧ ns = d ++ [n] ∧ look (some es) ns = some t ∧ t.isSome = md := by
  unfold globIn
  constructor
  · intro h
    split at h
    · rename_i sub e
      rw [List.mem_map] at h
      obtain ⟨⟨n, b⟩, h, e2⟩ := h
      rw [List.mem_filter, Bool.and_eq_true, beq_iff_eq] at h
      obtain ⟨t, h1, h2⟩ := (list_find sub (look_distinct es hd d sub e) n b).1 h.1
      refine ⟨n, t, h.2.2, e2.symm, ?_, h2.trans h.2.1⟩
      rw [← e2, look_append, e]
      show look (some sub) [n] = _
      unfold look
      rw [h1]
      rfl
    · exact absurd h (by simp)
  · rintro ⟨n, t, h1, h2, h3, h4⟩
    rw [h2, look_append] at h3
    cases e : look (some es) d with
    | none => rw [e] at h3; exact absurd h3 (by simp)
    | some u =>
      rw [e] at h3
      cases u with
      | none => exact absurd h3 (by simp [look])
      | some sub =>
        have h3 : look (some sub) [n] = some t := h3
        unfold look at h3
        show ns ∈ (sub.list.filter fun e => e.2 == md && glob true e.1 p).map fun e => d ++ [e.1]
        rw [List.mem_map]
        refine ⟨(n, md), ?_, h2.symm⟩
        rw [List.mem_filter, Bool.and_eq_true, beq_iff_eq]
        refine ⟨(list_find sub (look_distinct es hd d sub e) n md).2 ?_, rfl, h1⟩
        cases e3 : sub.find n with
        | none => rw [e3] at h3; exact absurd h3 (by simp)
        | some v =>
          rw [e3] at h3
          have : v = t := by cases v <;> simpa [look] using h3
          exact ⟨v, rfl, by rw [this]; exact h4⟩

/-! ## The loop over the parts -/

/-- What a part leads to from one of the paths before it, on the way. -/
theorem stage_on (es : Ents) (hd : Distinct es) (prev : List (List Name)) (hp : prev ≠ []) (p : Name) (ps : List Name) (ns : List Name)
    (t : Option Ents) (ht : look (some es) ns = some t) :
    (∃ d ∈ stage es prev p false, ∃ ms, ns = d ++ ms ∧ FitsPath ps ms) ↔ ∃ d ∈ prev, ∃ ms, ns = d ++ ms ∧ FitsPath (p :: ps) ms ∧ ps ≠ [] := by
  have hpe : prev.isEmpty = false := by cases prev with
    | nil => exact absurd rfl hp
    | cons _ _ => rfl
  have ne : ∀ {qs ms : List Name}, FitsPath qs ms → qs ≠ [] ∧ ms ≠ [] := by
    intro qs ms h
    induction h with
    | last _ _ => simp
    | under h => exact ⟨by simp, h⟩
    | part _ _ _ _ => simp
    | crawl ds _ ih => exact ⟨by simp, by simp [ih.2]⟩
  have isdir : ∀ {d ms : List Name}, ns = d ++ ms → ms ≠ [] → ∃ s, look (some es) d = some (some s) := by
    intro d ms e hm
    rw [e, look_append] at ht
    cases e2 : look (some es) d with
    | none => rw [e2] at ht; exact absurd ht (by simp)
    | some u =>
      cases u with
      | some s => exact ⟨s, rfl⟩
      | none =>
        rw [e2] at ht
        cases ms with
        | nil => exact absurd rfl hm
        | cons _ _ => exact absurd ht (by simp [look])
  unfold stage
  rw [hpe]
  by_cases hg : hasGlob p = false
  · rw [if_pos hg, if_neg (by simp), if_neg (by simp)]
    have hs := (hasGlob_false_iff p).1 hg
    have hc : p ≠ [42, 42] := fun e => hs (e ▸ special_crawl)
    constructor
    · rintro ⟨d, h, ms, e, hm⟩
      rw [List.mem_map] at h
      obtain ⟨d0, h, rfl⟩ := h
      exact ⟨d0, h, p :: ms, by rw [e]; simp, .part hc (Or.inr ⟨hs, rfl⟩) hm, (ne hm).1⟩
    · rintro ⟨d, h, ms, e, hm, hps⟩
      cases hm with
      | last _ _ => exact absurd rfl hps
      | under _ => exact absurd rfl hps
      | crawl _ _ => exact absurd rfl hc
      | @part _ n _ ms _ hf hm =>
        have : n = p := by
          rcases hf with ⟨h, _⟩ | ⟨_, h⟩
          · exact absurd h hs
          · exact h
        exact ⟨d ++ [p], List.mem_map.2 ⟨d, h, rfl⟩, ms, by rw [e, this]; simp, hm⟩
  · rw [if_neg hg]
    rw [Bool.not_eq_false, hasGlob_iff] at hg
    by_cases hc : p = crawlPart
    · rw [if_pos hc, if_neg (by simp), if_neg (by simp)]
      have hc : p = [42, 42] := hc
      subst hc
      constructor
      · rintro ⟨d, h, ms, e, hm⟩
        rw [List.mem_append] at h
        rcases h with h | h
        · exact ⟨d, h, ms, e, .crawl [] hm, (ne hm).1⟩
        · rw [List.mem_flatMap] at h
          obtain ⟨d0, h0, h⟩ := h
          obtain ⟨ds, u, _, e2, _, _⟩ := (mem_crawlIn es hd _ d0 d).1 h
          exact ⟨d0, h0, ds ++ ms, by rw [e, e2, List.append_assoc], .crawl ds hm, (ne hm).1⟩
      · rintro ⟨d, h, ms, e, hm, hps⟩
        cases hm with
        | last _ _ => exact absurd rfl hps
        | under _ => exact absurd rfl hps
        | part h _ _ => exact absurd rfl h
        | @crawl _ ms ds hm =>
          by_cases hds : ds = []
          · subst hds
            exact ⟨d, List.mem_append_left _ h, ms, e, hm⟩
          · obtain ⟨s, hs⟩ := isdir (d := d ++ ds) (by rw [e, List.append_assoc]) (ne hm).2
            refine ⟨d ++ ds, List.mem_append_right _ (List.mem_flatMap.2 ⟨d, h, ?_⟩), ms, by rw [e, List.append_assoc], hm⟩
            exact (mem_crawlIn es hd _ d _).2 ⟨ds, some s, hds, rfl, hs, rfl⟩
    · rw [if_neg hc, if_neg (by simp)]
      have hc : p ≠ [42, 42] := hc
      constructor
      · rintro ⟨d, h, ms, e, hm⟩
        rw [List.mem_flatMap] at h
        obtain ⟨d0, h0, h⟩ := h
        obtain ⟨n, u, h1, e2, _, _⟩ := (mem_globIn es hd _ p d0 d).1 h
        exact ⟨d0, h0, n :: ms, by rw [e, e2]; simp, .part hc (Or.inl ⟨hg, (C111_glob p n).1 h1⟩) hm, (ne hm).1⟩
      · rintro ⟨d, h, ms, e, hm, hps⟩
        cases hm with
        | last _ _ => exact absurd rfl hps
        | under _ => exact absurd rfl hps
        | crawl _ _ => exact absurd rfl hc
        | @part _ n _ ms _ hf hm =>
          have hf : glob true n p = true := by
            rcases hf with ⟨_, h⟩ | ⟨h, _⟩
            · exact (C111_glob p n).2 h
            · exact absurd hg h
          obtain ⟨s, hs⟩ := isdir (d := d ++ [n]) (by rw [e]; simp) (ne hm).2
          refine ⟨d ++ [n], List.mem_flatMap.2 ⟨d, h, ?_⟩, ms, by rw [e]; simp, hm⟩
          exact (mem_globIn es hd _ p d _).2 ⟨n, some s, hf, rfl, hs, rfl⟩

/-- What the last part leads to. -/
theorem stage_last (es : Ents) (hd : Distinct es) (prev : List (List Name)) (hp : prev ≠ []) (p : Name) (ns : List Name) :
    ns ∈ stage es prev p true ↔
      ∃ d ∈ prev, ∃ ms, ns = d ++ ms ∧ FitsPath [p] ms ∧ ∃ t, look (some es) ns = some t ∧ (t = none ∨ ¬ Special p) := by
  have hpe : prev.isEmpty = false := by cases prev with
    | nil => exact absurd rfl hp
    | cons _ _ => rfl
  have no : ∀ {ms : List Name}, ¬ FitsPath [] ms := by intro ms h; cases h
  unfold stage
  rw [hpe]
  by_cases hg : hasGlob p = false
  · rw [if_pos hg, if_neg (by simp), if_pos rfl]
    have hs := (hasGlob_false_iff p).1 hg
    have hc : p ≠ [42, 42] := fun e => hs (e ▸ special_crawl)
    rw [List.mem_filter, List.mem_map]
    unfold exists'
    rw [Option.isSome_iff_exists]
    constructor
    · rintro ⟨⟨d, h, rfl⟩, t, ht⟩
      exact ⟨d, h, [p], rfl, .last hc (Or.inr ⟨hs, rfl⟩), t, ht, Or.inr hs⟩
    · rintro ⟨d, h, ms, e, hm, t, ht, _⟩
      refine ⟨⟨d, h, ?_⟩, t, ht⟩
      cases hm with
      | under _ => exact absurd rfl hc
      | crawl _ _ => exact absurd rfl hc
      | part _ _ h => exact absurd h no
      | last _ hf =>
        rcases hf with ⟨h, _⟩ | ⟨_, h⟩
        · exact absurd h hs
        · rw [e, h]
  · rw [if_neg hg]
    rw [Bool.not_eq_false, hasGlob_iff] at hg
    have tn : ∀ t : Option Ents, t.isSome = (!true) ↔ t = none := by intro t; cases t <;> simp
    by_cases hc : p = crawlPart
    · rw [if_pos hc, if_pos rfl, if_neg (by simp), List.nil_append]
      have hc : p = [42, 42] := hc
      subst hc
      rw [List.mem_flatMap]
      constructor
      · rintro ⟨d, h, hm⟩
        obtain ⟨ds, t, h1, h2, h3, h4⟩ := (mem_crawlIn es hd _ d ns).1 hm
        exact ⟨d, h, ds, h2, .under h1, t, h3, Or.inl ((tn t).1 h4)⟩
      · rintro ⟨d, h, ms, e, hm, t, ht, hn⟩
        refine ⟨d, h, (mem_crawlIn es hd _ d ns).2 ⟨ms, t, ?_, e, ht, (tn t).2 (hn.resolve_right fun h => h hg)⟩⟩
        cases hm with
        | under h => exact h
        | last h _ => exact absurd rfl h
        | part _ _ h => exact absurd h no
        | crawl _ h => exact absurd h no
    · rw [if_neg hc, if_neg (by simp)]
      have hc : p ≠ [42, 42] := hc
      rw [List.mem_flatMap]
      constructor
      · rintro ⟨d, h, hm⟩
        obtain ⟨n, t, h1, h2, h3, h4⟩ := (mem_globIn es hd _ p d ns).1 hm
        exact ⟨d, h, [n], h2, .last hc (Or.inl ⟨hg, (C111_glob p n).1 h1⟩), t, h3, Or.inl ((tn t).1 h4)⟩
      · rintro ⟨d, h, ms, e, hm, t, ht, hn⟩
        cases hm with
        | under _ => exact absurd rfl hc
        | crawl _ _ => exact absurd rfl hc
        | part _ _ h => exact absurd h no
        | @last _ n _ hf =>
          have hf : glob true n p = true := by
            rcases hf with ⟨_, h⟩ | ⟨h, _⟩
            · exact (C111_glob p n).2 h
            · exact absurd hg h
          exact ⟨d, h, (mem_globIn es hd _ p d ns).2 ⟨n, t, hf, e, ht, (tn t).2 (hn.resolve_right fun h => h hg)⟩⟩

/-- What all parts lead to from the paths before them. -/
theorem parts_iff (es : Ents) (hd : Distinct es) (ps : List Name) (hps : ps ≠ []) (prev : List (List Name)) (hp : prev ≠ []) (ns : List Name) :
    (∃ r, parts es ps prev = some r ∧ ns ∈ r) ↔
      ∃ d ∈ prev, ∃ ms, ns = d ++ ms ∧ FitsPath ps ms ∧
        ∃ t, look (some es) ns = some t ∧ (t = none ∨ ∃ p, ps.getLast? = some p ∧ ¬ Special p) := by
  induction ps generalizing prev with
  | nil => exact absurd rfl hps
  | cons p ps ih =>
    cases ps with
    | nil =>
      have hl : (∃ r, parts es [p] prev = some r ∧ ns ∈ r) ↔ ns ∈ stage es prev p true := by
        show (∃ r, (if (stage es prev p true).isEmpty then none else some (stage es prev p true)) = some r ∧ ns ∈ r) ↔ _
        constructor
        · rintro ⟨r, h, hr⟩
          split at h
          · exact absurd h (by simp)
          · injection h with h; exact h ▸ hr
        · intro h
          refine ⟨_, if_neg ?_, h⟩
          intro e
          rw [List.isEmpty_iff.mp e] at h
          exact absurd h (by simp)
      rw [hl, stage_last es hd prev hp]
      simp
    | cons q ps =>
      have hl : (∃ r, parts es (p :: q :: ps) prev = some r ∧ ns ∈ r) ↔
          stage es prev p false ≠ [] ∧ ∃ r, parts es (q :: ps) (stage es prev p false) = some r ∧ ns ∈ r := by
        show (∃ r, (if (stage es prev p false).isEmpty then none else parts es (q :: ps) (stage es prev p false)) = some r ∧ ns ∈ r) ↔ _
        constructor
        · rintro ⟨r, h, hr⟩
          split at h
          · exact absurd h (by simp)
          · rename_i e
            exact ⟨fun e2 => e (by rw [e2]; rfl), r, h, hr⟩
        · rintro ⟨e, r, h, hr⟩
          exact ⟨r, by rw [if_neg (fun e2 => e (List.isEmpty_iff.mp e2))]; exact h, hr⟩
      rw [hl]
      have hlast : (p :: q :: ps).getLast? = (q :: ps).getLast? := by simp [List.getLast?_cons_cons]
      rw [hlast]
      constructor
      · rintro ⟨hne, h⟩
        obtain ⟨d, hdm, ms, e, hm, t, ht, hn⟩ := (ih (by simp) _ hne).1 h
        obtain ⟨d0, h0, ms0, e0, hm0, _⟩ := (stage_on es hd prev hp p (q :: ps) ns t ht).1 ⟨d, hdm, ms, e, hm⟩
        exact ⟨d0, h0, ms0, e0, hm0, t, ht, hn⟩
      · rintro ⟨d, hdm, ms, e, hm, t, ht, hn⟩
        obtain ⟨d0, h0, ms0, e0, hm0⟩ := (stage_on es hd prev hp p (q :: ps) ns t ht).2 ⟨d, hdm, ms, e, hm, by simp⟩
        have hne : stage es prev p false ≠ [] := fun e => by rw [e] at h0; exact absurd h0 (by simp)
        exact ⟨hne, (ih (by simp) _ hne).2 ⟨d0, h0, ms0, e0, hm0, t, ht, hn⟩⟩

theorem parts_ne (es : Ents) (ps : List Name) (hps : ps ≠ []) (prev : List (List Name)) (r : List (List Name)) (h : parts es ps prev = some r) : r ≠ [] := by
  induction ps generalizing prev with
  | nil => exact absurd rfl hps
  | cons p ps ih =>
    unfold parts at h
    split at h
    · exact absurd h (by simp)
    · rename_i e
      split at h
      · injection h with h
        rw [← h]
        exact fun e2 => e (List.isEmpty_iff.mpr e2)
      · rename_i e2
        exact ih (fun e3 => e2 (List.isEmpty_iff.mpr e3)) _ h

/-! ## Texts -/

theorem cut_word (w : List Ch) (h : 47 ∉ w ∧ 92 ∉ w) (st : Bool) (pre cur cs : List Ch) :
    cut st pre cur (w ++ cs) = cut st (pre ++ w) (cur ++ w) cs := by
  induction w generalizing pre cur with
  | nil => simp
  | cons c w ih =>
    simp only [List.mem_cons, not_or] at h
    show cut st pre cur (c :: (w ++ cs)) = _
    rw [cut, if_neg (fun e => e.elim (fun e => h.2.1 e.symm) (fun e => h.1.1 e.symm)), ih ⟨h.1.2, h.2.2⟩]
    simp

theorem cut_joined (ps : List Name) (hps : ps ≠ []) (h : ∀ p ∈ ps, Part p) (pre : List Ch) : cut true pre [] (joined ps) = ps := by
  induction ps generalizing pre with
  | nil => exact absurd rfl hps
  | cons p ps ih =>
    have hp := h p (by simp)
    cases ps with
    | nil =>
      have := cut_word p hp.2.2.2 true pre [] []
      rw [List.append_nil] at this
      show cut true pre [] p = _
      rw [this]
      rfl
    | cons q ps =>
      show cut true pre [] (p ++ 47 :: joined (q :: ps)) = _
      rw [cut_word p hp.2.2.2]
      rw [List.nil_append, cut, if_pos (Or.inr rfl), if_neg (by simpa using hp.1), if_pos rfl, ih (by simp) (fun p hp => h p (List.mem_cons_of_mem _ hp))]

theorem cut_first (p : Name) (ps : List Name) (h : ∀ q ∈ p :: ps, Part q) (pre : List Ch) :
    cut false pre [] (joined (p :: ps)) = if ps = [] then [p] else (pre ++ p) :: ps := by
  have hp := h p (by simp)
  cases ps with
  | nil =>
    have := cut_word p hp.2.2.2 false pre [] []
    rw [List.append_nil] at this
    show cut false pre [] p = _
    rw [this]
    rfl
  | cons q ps =>
    show cut false pre [] (p ++ 47 :: joined (q :: ps)) = _
    rw [cut_word p hp.2.2.2, List.nil_append, cut, if_pos (Or.inr rfl), if_neg (by simpa using hp.1), if_neg (by simp), if_neg (by simp),
      cut_joined _ (by simp) (fun p hp => h p (List.mem_cons_of_mem _ hp))]

theorem names_word (w : List Ch) (h : 47 ∉ w) (cur cs : List Ch) : names cur (w ++ cs) = names (cur ++ w) cs := by
  induction w generalizing cur with
  | nil => simp
  | cons c w ih =>
    simp only [List.mem_cons, not_or] at h
    show names cur (c :: (w ++ cs)) = _
    rw [names, if_neg (fun e => h.1 e.symm), ih h.2]
    simp

theorem names_joined (ps : List Name) (h : ∀ p ∈ ps, Part p) : names [] (joined ps) = ps := by
  induction ps with
  | nil => rfl
  | cons p ps ih =>
    have hp := h p (by simp)
    cases ps with
    | nil =>
      have := names_word p hp.2.2.2.1 [] []
      rw [List.append_nil] at this
      show names [] p = _
      rw [this, List.nil_append, names, if_neg (by simpa using hp.1)]
    | cons q ps =>
      show names [] (p ++ 47 :: joined (q :: ps)) = _
      rw [names_word p hp.2.2.2.1, List.nil_append, names, if_pos rfl, if_neg (by simpa using hp.1), ih (fun p hp => h p (List.mem_cons_of_mem _ hp))]

theorem names_text (b : Bool) (ps : List Name) (h : ∀ p ∈ ps, Part p) : names [] (text b ps) = ps := by
  cases b with
  | false => exact names_joined ps h
  | true =>
    show names [] (47 :: joined ps) = ps
    exact names_joined ps h

theorem head_joined (p : Name) (ps : List Name) (hp : Part p) : (joined (p :: ps)).head? ≠ some 47 ∧ joined (p :: ps) ≠ [] := by
  obtain ⟨c, p, rfl⟩ := List.exists_cons_of_ne_nil hp.1
  have : c ≠ 47 := fun e => hp.2.2.2.1 (by rw [e]; simp)
  cases ps with
  | nil => exact ⟨by simpa [joined] using this, by simp [joined]⟩
  | cons q ps => exact ⟨by simpa [joined] using this, by simp [joined]⟩

theorem base_text (d : Disk) (b : Bool) (p : Name) (ps : List Name) (hp : Part p) : d.base (text b (p :: ps)) = d.start b := by
  unfold Disk.base Disk.start
  cases b with
  | true => rfl
  | false =>
    show (if (joined (p :: ps)).head? = some 47 then d.root else d.cwd) = _
    rw [if_neg (head_joined p ps hp).1]
    rfl

theorem special_joined (ps : List Name) : Special (joined ps) ↔ ∃ p ∈ ps, Special p := by
  induction ps with
  | nil => simp [Special, joined]
  | cons p ps ih =>
    cases ps with
    | nil => simp [joined]
    | cons q ps =>
      have hm : ∀ c : Ch, c ≠ 47 → (c ∈ joined (p :: q :: ps) ↔ c ∈ p ∨ c ∈ joined (q :: ps)) := by
        intro c hc
        show c ∈ p ++ 47 :: joined (q :: ps) ↔ _
        simp [hc]
      have : Special (joined (p :: q :: ps)) ↔ Special p ∨ Special (joined (q :: ps)) := by
        unfold Special
        rw [hm 42 (by decide), hm 63 (by decide), hm 91 (by decide)]
        constructor
        · rintro ((h | h) | (h | h) | (h | h))
          · exact Or.inl (Or.inl h)
          · exact Or.inr (Or.inl h)
          · exact Or.inl (Or.inr (Or.inl h))
          · exact Or.inr (Or.inr (Or.inl h))
          · exact Or.inl (Or.inr (Or.inr h))
          · exact Or.inr (Or.inr (Or.inr h))
        · rintro ((h | h | h) | (h | h | h))
          · exact Or.inl (Or.inl h)
          · exact Or.inr (Or.inl (Or.inl h))
          · exact Or.inr (Or.inr (Or.inl h))
          · exact Or.inl (Or.inr h)
          · exact Or.inr (Or.inl (Or.inr h))
          · exact Or.inr (Or.inr (Or.inr h))
      rw [this, ih]
      simp

theorem special_text (b : Bool) (ps : List Name) : hasGlob (text b ps) = true ↔ ∃ p ∈ ps, Special p := by
  rw [hasGlob_iff, ← special_joined]
  cases b with
  | false => rfl
  | true =>
    show Special (47 :: joined ps) ↔ _
    unfold Special
    simp

end Verif.Glob
