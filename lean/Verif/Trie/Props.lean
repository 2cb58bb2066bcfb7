import Verif.Trie.Lemmas
import Verif.Trie.Spec
import Mathlib.Data.List.Induction
/-!
C35: the catalog trie is a map with history; the namespaces kept in it.
-/
namespace Verif.Trie
set_option linter.unusedSectionVars false
variable {E V : Type} [LinearOrder E]

theorem inv_step (t : Trie E V) (h : Inv t) (o : Op E V) : Inv (step t o) := by
  cases o with
  | insert p v => exact (insert_ok t h p v).1
  | erase p => exact (erase_ok t h p).1
  | touch p f => exact (touch_ok t h p f).1

theorem inv_foldl (ops : List (Op E V)) : ∀ t : Trie E V, Inv t → Inv (ops.foldl step t) := by
  induction ops with
  | nil => intro t h; exact h
  | cons o ops ih => intro t h; exact ih _ (inv_step t h o)

theorem inv_after (ops : List (Op E V)) : Inv (after ops) := inv_foldl ops _ inv_empty

/-- After any history: an insertion is found at its path, every other path is as before. -/
theorem C35_insert (ops : List (Op E V)) (p : List E) (v : V) :
    ((after ops).insert p v).find p = some v ∧
    ∀ q, q ≠ p → ((after ops).insert p v).find q = (after ops).find q ∧ ((after ops).insert p v).versions q = (after ops).versions q := by
  obtain ⟨_, h⟩ := insert_ok (after ops) (inv_after ops) p v
  refine ⟨?_, fun q hq => ?_⟩
  · rw [find_eq, h p, if_pos rfl]
    simp
  · have : ((after ops).insert p v).versions q = (after ops).versions q := by rw [h q, if_neg hq]
    exact ⟨by rw [find_eq, find_eq, this], this⟩

/-- After any history: erasing a path leaves every other path as it was, whether shorter, longer or unrelated. -/
theorem C35_erase_others (ops : List (Op E V)) (p q : List E) (hq : q ≠ p) :
    ((after ops).erase p).1.find q = (after ops).find q ∧ ((after ops).erase p).1.versions q = (after ops).versions q := by
  obtain ⟨_, h⟩ := erase_ok (after ops) (inv_after ops) p
  have : ((after ops).erase p).1.versions q = (after ops).versions q := by rw [h q, if_neg (fun hc => hq hc.1)]
  exact ⟨by rw [find_eq, find_eq, this], this⟩

/-- After any history: erasing the last version of a path makes it absent. -/
theorem C35_erase_last (ops : List (Op E V)) (p : List E) (h1 : ((after ops).versions p).length = 1) :
    ((after ops).erase p).1.find p = none := by
  obtain ⟨_, h⟩ := erase_ok (after ops) (inv_after ops) p
  rw [find_none, h p]
  obtain ⟨v, hv⟩ := List.length_eq_one_iff.mp h1
  rw [if_pos ⟨rfl, by rw [hv]; simp⟩, hv]
  unfold leftOver
  cases (after ops).leaf p <;> simp

/-- After any history: an erased path loses its latest version, and no other version that something refers to. -/
theorem C35_erase_versions (ops : List (Op E V)) (p : List E) :
    (((after ops).erase p).1.versions p).filter Ver.alive = ((after ops).versions p).dropLast.filter Ver.alive ∧
    (((after ops).erase p).1.versions p).Sublist ((after ops).versions p).dropLast := by
  obtain ⟨_, h⟩ := erase_ok (after ops) (inv_after ops) p
  rw [h p]
  by_cases hv : (after ops).versions p = []
  · rw [if_neg (fun hc => hc.2 hv), hv]
    exact ⟨rfl, List.Sublist.refl _⟩
  · rw [if_pos ⟨rfl, hv⟩]
    unfold leftOver
    cases (after ops).leaf p with
    | false => exact ⟨rfl, List.Sublist.refl _⟩
    | true =>
      simp only [Bool.not_true, Bool.false_eq_true, if_false]
      by_cases ha : ((after ops).versions p).dropLast.any Ver.alive
      · rw [if_pos ha]
        exact ⟨by rw [List.filter_filter]; simp, List.filter_sublist⟩
      · rw [if_neg ha]
        refine ⟨?_, List.nil_sublist _⟩
        rw [List.filter_nil]
        symm
        rw [List.filter_eq_nil_iff]
        intro x hx hc
        exact ha (List.any_eq_true.mpr ⟨x, hx, hc⟩)

/-- After any history: the iteration visits exactly the paths that are found, with their values, in lexicographic order,
each once; and the trie is empty by its size exactly if nothing is found. -/
theorem C35_iteration (ops : List (Op E V)) :
    (∀ p v, (p, v) ∈ (after ops).elems ↔ (after ops).find p = some v) ∧
    ((after ops).elems.map Prod.fst).Pairwise (· < ·) ∧
    ((after ops).size = 0 ↔ ∀ p, (after ops).find p = none) := by
  have hi := inv_after ops
  unfold Inv at hi
  unfold Trie.elems
  have hfe : ∀ p, (after ops).find p = (obs' (after ops).root p).getLast?.map Ver.val := by
    intro p
    rw [find_eq, versions_eq]
  cases hr : (after ops).root with
  | none =>
    rw [hr] at hi
    refine ⟨fun p v => ?_, List.Pairwise.nil, fun _ p => ?_, fun _ => hi⟩
    · rw [hfe, hr]; simp [obs']
    · rw [hfe, hr]; rfl
  | some r =>
    rw [hr] at hi
    obtain ⟨h1, h2, h3⟩ := (hi : r.WF ∧ r.live ∧ (after ops).size = r.total)
    refine ⟨fun p v => ?_, elems_sorted r h1, ?_⟩
    · rw [hfe, hr]
      exact mem_elems r h1 p v
    · have hpos := total_pos r h1 h2
      obtain ⟨p, hp⟩ := live_obs r h1 h2
      constructor
      · intro h0; omega
      · intro h0
        have := h0 p
        rw [hfe, hr, getLast_none] at this
        exact absurd this hp

/-- The full claim: a map with history. -/
def C35_claim (E V : Type) [LinearOrder E] : Prop :=
  ∀ ops : List (Op E V), (∀ o ∈ ops, o.keepsValues) → ∀ p, (after ops).find p = (stackAfter ops p).getLast?

/-- Insert twice, erase once: the earlier value is gone. -/
theorem C35_older_version_fails : ¬ C35_claim Nat Nat := by
  intro h
  have := h [.insert [1] 10, .insert [1] 20, .erase [1]] (by simp [Op.keepsValues]) [1]
  revert this
  decide +kernel

/-- With a longer path below, the same history keeps the earlier value. -/
example : (after [.insert [1, 2] 30, .insert [1] 10, .insert [1] 20, .erase [1]] : Trie Nat Nat).find [1] = some 10 := by decide +kernel

theorem stackAfter_snoc (ops : List (Op E V)) (o : Op E V) : stackAfter (ops ++ [o]) = stackStep (stackAfter ops) o := by
  unfold stackAfter; rw [List.foldl_append]; rfl

theorem after_snoc (ops : List (Op E V)) (o : Op E V) : after (ops ++ [o]) = step (after ops) o := by
  unfold after; rw [List.foldl_append]; rfl

theorem map_exact (ops : List (Op E V)) : FreshInserts ops → (∀ o ∈ ops, o.keepsValues) →
    ∀ p, ((after ops).versions p).map Ver.val = stackAfter ops p ∧ (stackAfter ops p).length ≤ 1 := by
  induction ops using List.reverseRecOn with
  | nil => intro _ _ p; exact ⟨rfl, Nat.zero_le _⟩
  | append_singleton ops o ih =>
    intro hf hk p
    have hf' : FreshInserts ops := by
      intro pre post q v he
      exact hf pre (post ++ [o]) q v (by rw [he]; simp)
    have ih := ih hf' (fun x hx => hk x (List.mem_append_left _ hx))
    rw [stackAfter_snoc, after_snoc]
    have ihp := ih p
    cases o with
    | insert q v =>
      have hq := hf ops [] q v rfl
      obtain ⟨_, h⟩ := insert_ok (after ops) (inv_after ops) q v
      show (((after ops).insert q v).versions p).map Ver.val = _ ∧ _
      rw [h p]
      simp only [stackStep]
      by_cases hp : p = q
      · subst hp
        rw [if_pos rfl, if_pos rfl, List.map_append, ihp.1, hq]
        exact ⟨rfl, by simp⟩
      · rw [if_neg hp, if_neg hp]
        exact ihp
    | erase q =>
      obtain ⟨_, h⟩ := erase_ok (after ops) (inv_after ops) q
      show (((after ops).erase q).1.versions p).map Ver.val = _ ∧ _
      rw [h p]
      simp only [stackStep]
      by_cases hp : p = q
      · subst hp
        rw [if_pos rfl]
        have hl : ((after ops).versions p).length ≤ 1 := by
          have := ihp.2
          rw [← ihp.1, List.length_map] at this
          exact this
        have hs : (stackAfter ops p).dropLast = [] := by
          rw [← List.length_eq_zero_iff, List.length_dropLast]
          have := ihp.2
          omega
        rw [hs]
        refine ⟨?_, by simp⟩
        by_cases hv : (after ops).versions p = []
        · rw [if_neg (fun hc => hc.2 hv), hv]; rfl
        · rw [if_pos ⟨rfl, hv⟩]
          have hd : ((after ops).versions p).dropLast = [] := by
            rw [← List.length_eq_zero_iff, List.length_dropLast]
            omega
          unfold leftOver
          rw [hd]
          cases (after ops).leaf p <;> rfl
      · rw [if_neg hp, if_neg (fun hc => hp hc.1)]
        exact ihp
    | touch q f =>
      obtain ⟨_, h⟩ := touch_ok (after ops) (inv_after ops) q f
      show (((after ops).touch q f).versions p).map Ver.val = _ ∧ _
      rw [h p]
      have hkv : ∀ v, (f v).val = v.val := hk (.touch q f) (by simp)
      simp only [stackStep]
      refine ⟨?_, ihp.2⟩
      by_cases hp : p = q
      · subst hp
        rw [if_pos rfl, List.map_map, ← ihp.1]
        apply List.map_congr_left
        intro v _
        exact hkv v
      · rw [if_neg hp]
        exact ihp.1

/-- Histories that insert only where nothing is (the way namespaces are made): the trie is a map. -/
theorem C35_map_partial (ops : List (Op E V)) (hf : FreshInserts ops) (hk : ∀ o ∈ ops, o.keepsValues) (p : List E) :
    (after ops).find p = (stackAfter ops p).getLast? := by
  rw [find_eq, ← (map_exact ops hf hk p).1, List.getLast?_map]

/-- Prefixes, extensions, an erased inner path, a path inserted again. -/
example : FreshInserts ([.insert [1, 2] 10, .insert [1] 20, .insert [1, 2, 3] 30, .erase [1, 2], .erase [1, 2], .insert [1, 2] 40] : List (Op Nat Nat)) ∧
    (after [.insert [1, 2] 10, .insert [1] 20, .insert [1, 2, 3] 30, .erase [1, 2], .erase [1, 2], .insert [1, 2] 40] : Trie Nat Nat).elems
      = [([1], 20), ([1, 2], 40), ([1, 2, 3], 30)] := by
  refine ⟨?_, by decide +kernel⟩
  intro pre post p v h
  rcases pre with _ | ⟨_, _ | ⟨_, _ | ⟨_, _ | ⟨_, _ | ⟨_, _ | ⟨_, pre⟩⟩⟩⟩⟩⟩ <;> simp at h
  · rw [h.1.1.symm]; rfl
  · rw [← h.1, h.2.1.1.symm]; decide +kernel
  · rw [← h.1, ← h.2.1, h.2.2.1.1.symm]; decide +kernel
  · rw [← h.1, ← h.2.1, ← h.2.2.1, ← h.2.2.2.1, ← h.2.2.2.2.1, h.2.2.2.2.2.1.1.symm]; decide +kernel

/-- Some erasures destroy a node on which two iterators stand; their destructors then use it. -/
theorem C35_freed_node_fails : ((after [.insert [1] 10] : Trie Nat Nat).erase [1]).2 = true := by decide +kernel

/-! ### namespaces -/

theorem exists_iff (t : Trie E V) (p : List E) : nsExists t p = true ↔ p ≠ [] ∧ t.versions p ≠ [] := by
  unfold nsExists
  rw [Bool.and_eq_true, Bool.not_eq_true', List.isEmpty_eq_false_iff, Option.isSome_iff_ne_none, Ne, Ne, find_none]

/-- What `create` needs and keeps: the invariant, one version at most, none at the empty path. -/
structure NsInv (t : Trie E V) : Prop where
  inv : Inv t
  one : ∀ p, (t.versions p).length ≤ 1
  top : t.versions [] = []

theorem ns_versions_exists {t : Trie E V} (h : NsInv t) (p : List E) : nsExists t p = true ↔ t.versions p ≠ [] := by
  rw [exists_iff]
  constructor
  · exact fun h => h.2
  · intro hv
    refine ⟨?_, hv⟩
    rintro rfl
    exact hv h.top

theorem ns_insert {t : Trie E V} (h : NsInv t) (p : List E) (v : V) (hp : p ≠ []) (he : nsExists t p = false) :
    NsInv (t.insert p v) ∧ ∀ q, nsExists (t.insert p v) q = true ↔ q = p ∨ nsExists t q = true := by
  have hv : t.versions p = [] := by
    by_contra hc
    rw [(ns_versions_exists h p).mpr hc] at he
    cases he
  obtain ⟨h1, h2⟩ := insert_ok t h.inv p v
  have hn : NsInv (t.insert p v) := by
    refine ⟨h1, fun q => ?_, ?_⟩
    · rw [h2 q]
      by_cases hq : q = p
      · rw [if_pos hq, hv]; simp
      · rw [if_neg hq]; exact h.one q
    · rw [h2, if_neg (Ne.symm hp)]; exact h.top
  refine ⟨hn, fun q => ?_⟩
  rw [ns_versions_exists hn, ns_versions_exists h, h2 q]
  by_cases hq : q = p
  · rw [if_pos hq]; simp [hq]
  · rw [if_neg hq]; simp [hq]

theorem prefix_dropLast {q p : List E} (hp : p ≠ []) : q <+: p ↔ q = p ∨ q <+: p.dropLast := by
  obtain ⟨l, a, rfl⟩ : ∃ l a, p = l ++ [a] := ⟨p.dropLast, p.getLast hp, (List.dropLast_append_getLast hp).symm⟩
  rw [List.dropLast_concat]
  rw [List.prefix_concat_iff]

theorem ns_create (info : V) : ∀ (n : Nat) (t : Trie E V) (p : List E), NsInv t → p ≠ [] → p.length ≤ n →
    NsInv (createNs info n t p).1 ∧ ((createNs info n t p).2 = false →
    ∀ q, nsExists (createNs info n t p).1 q = true ↔
      nsExists t q = true ∨ (q ≠ [] ∧ q <+: p ∧ ∀ r, nsExists t r = true → r <+: p → r.length < q.length))
  | 0, t, p, h, hp, hl => by
    exact absurd (List.length_eq_zero_iff.mp (by omega)) hp
  | n + 1, t, p, h, hp, hl => by
    simp only [createNs]
    by_cases he : nsExists t p = true
    · rw [if_pos he]
      refine ⟨h, fun _ q => ⟨Or.inl, ?_⟩⟩
      rintro (hq | ⟨_, h2, h3⟩)
      · exact hq
      · have := h3 p he (List.prefix_refl p)
        have := h2.length_le
        omega
    · have hef : nsExists t p = false := by simpa using he
      rw [if_neg he]
      by_cases h1 : 1 < p.length
      · rw [if_pos h1]
        have hd : p.dropLast ≠ [] := by
          intro hc
          have := congrArg List.length hc
          rw [List.length_dropLast, List.length_nil] at this
          omega
        by_cases hpe : nsExists t p.dropLast = true
        · rw [if_pos hpe, if_neg Bool.false_ne_true]
          obtain ⟨i1, i2⟩ := ns_insert h p info hp hef
          refine ⟨i1, fun _ q => ?_⟩
          rw [i2 q]
          constructor
          · rintro (rfl | hq)
            · right
              refine ⟨hp, List.prefix_refl q, fun r hr hrp => ?_⟩
              rcases (prefix_dropLast hp).mp hrp with rfl | hrd
              · exact absurd hr he
              · have := hrd.length_le
                rw [List.length_dropLast] at this
                omega
            · exact Or.inl hq
          · rintro (hq | ⟨_, h2, h3⟩)
            · exact Or.inr hq
            · have := h3 _ hpe ((List.dropLast_prefix p))
              rw [List.length_dropLast] at this
              rcases (prefix_dropLast hp).mp h2 with rfl | hrd
              · exact Or.inl rfl
              · have h5 := hrd.length_le
                rw [List.length_dropLast] at h5
                omega
        · rw [if_neg hpe]
          obtain ⟨c1, c2⟩ := ns_create info n t p.dropLast h hd (by rw [List.length_dropLast]; omega)
          by_cases hth : (createNs info n t p.dropLast).2 = true
          · rw [if_pos hth]
            exact ⟨c1, fun hc => by rw [hth] at hc; cases hc⟩
          rw [if_neg hth]
          have c2 := c2 (by simpa using hth)
          have hef' : nsExists (createNs info n t p.dropLast).1 p = false := by
            by_contra hc
            rw [Bool.not_eq_false, c2 p] at hc
            rcases hc with hc | ⟨_, hc, _⟩
            · exact he hc
            · have := hc.length_le
              rw [List.length_dropLast] at this
              omega
          obtain ⟨i1, i2⟩ := ns_insert c1 p info hp hef'
          refine ⟨i1, fun _ q => ?_⟩
          rw [i2 q, c2 q]
          have hiff : ∀ r, nsExists t r = true → (r <+: p ↔ r <+: p.dropLast) := by
            intro r hr
            rw [prefix_dropLast hp]
            constructor
            · rintro (rfl | h')
              · exact absurd hr he
              · exact h'
            · exact Or.inr
          constructor
          · rintro (rfl | hq | ⟨q1, q2, q3⟩)
            · right
              refine ⟨hp, List.prefix_refl q, fun r hr hrp => ?_⟩
              have := ((hiff r hr).mp hrp).length_le
              rw [List.length_dropLast] at this
              omega
            · exact Or.inl hq
            · exact Or.inr ⟨q1, q2.trans (List.dropLast_prefix p), fun r hr hrp => q3 r hr ((hiff r hr).mp hrp)⟩
          · rintro (hq | ⟨q1, q2, q3⟩)
            · exact Or.inr (Or.inl hq)
            · rcases (prefix_dropLast hp).mp q2 with rfl | hq
              · exact Or.inl rfl
              · exact Or.inr (Or.inr ⟨q1, hq, fun r hr hrp => q3 r hr ((hiff r hr).mpr hrp)⟩)
      · rw [if_neg h1, if_neg Bool.false_ne_true]
        obtain ⟨i1, i2⟩ := ns_insert h p info hp hef
        have hp1 : p.length = 1 := by
          have := List.length_pos_of_ne_nil hp
          omega
        refine ⟨i1, fun _ q => ?_⟩
        rw [i2 q]
        constructor
        · rintro (rfl | hq)
          · right
            refine ⟨hp, List.prefix_refl q, fun r hr hrp => ?_⟩
            rcases (prefix_dropLast hp).mp hrp with rfl | hrd
            · exact absurd hr he
            · have := hrd.length_le
              rw [List.length_dropLast] at this
              omega
          · exact Or.inl hq
        · rintro (hq | ⟨q1, h2, h3⟩)
          · exact Or.inr hq
          · have := List.length_pos_of_ne_nil q1
            exact Or.inl (h2.eq_of_length (by have := h2.length_le; omega))

theorem ns_drop {t : Trie E V} (h : NsInv t) (p : List E) :
    NsInv (drop t p) ∧ ∀ q, nsExists (drop t p) q = true ↔ nsExists t q = true ∧ q ≠ p := by
  unfold drop
  by_cases hc : (p.isEmpty || !nsExists t p) = true
  · rw [if_pos hc]
    refine ⟨h, fun q => ⟨fun hq => ⟨hq, ?_⟩, fun hq => hq.1⟩⟩
    rintro rfl
    rw [hq] at hc
    have := ((exists_iff t q).mp hq).1
    simp [this] at hc
  · rw [if_neg hc]
    rw [Bool.or_eq_true, not_or, Bool.not_eq_true', Bool.not_eq_false] at hc
    obtain ⟨h1, h2⟩ := erase_ok t h.inv p
    have hv := ((ns_versions_exists h p).mp hc.2)
    have h0 : leftOver (t.leaf p) (t.versions p) = [] := by
      have hd : (t.versions p).dropLast = [] := by
        rw [← List.length_eq_zero_iff, List.length_dropLast]
        have := h.one p
        omega
      unfold leftOver
      rw [hd]
      cases t.leaf p <;> rfl
    have hn : NsInv (t.erase p).1 := by
      refine ⟨h1, fun q => ?_, ?_⟩
      · rw [h2 q]
        split
        · rw [h0]; simp
        · exact h.one q
      · rw [h2]
        split
        · exact h0
        · exact h.top
    refine ⟨hn, fun q => ?_⟩
    rw [ns_versions_exists hn, ns_versions_exists h, h2 q]
    by_cases hq : q = p
    · rw [if_pos ⟨hq, hv⟩, h0]; simp [hq]
    · rw [if_neg (fun hc => hq hc.1)]; simp [hq]

theorem ns_touch {t : Trie E V} (h : NsInv t) (p : List E) (f : Ver V → Ver V) :
    NsInv (t.touch p f) ∧ ∀ q, nsExists (t.touch p f) q = true ↔ nsExists t q = true := by
  obtain ⟨h1, h2⟩ := touch_ok t h.inv p f
  have hn : NsInv (t.touch p f) := by
    refine ⟨h1, fun q => ?_, ?_⟩
    · rw [h2 q]
      split
      · rw [List.length_map]; exact h.one p
      · exact h.one q
    · rw [h2]
      split
      · rename_i hp
        rw [← hp, h.top]; rfl
      · exact h.top
  refine ⟨hn, fun q => ?_⟩
  rw [ns_versions_exists hn, ns_versions_exists h, h2 q]
  split
  · rename_i hq
    rw [hq, Ne, List.map_eq_nil_iff]
  · exact Iff.rfl

theorem ns_all (info : V) (ops : List (NsOp E V)) : NoThrow info ops →
    NsInv (nsAfter info ops) ∧ ∀ q, nsExists (nsAfter info ops) q = true ↔ q ∈ nsSpec ops := by
  induction ops using List.reverseRecOn with
  | nil => exact fun _ => ⟨⟨rfl, fun _ => Nat.zero_le _, rfl⟩, fun q => by simp [nsAfter, nsSpec, exists_iff, Trie.versions, Trie.empty]⟩
  | append_singleton ops o ih =>
    intro hnt
    have ih := ih (fun pre post p hp he => hnt pre (post ++ [o]) p hp (by rw [he]; simp))
    have e1 : nsAfter info (ops ++ [o]) = nsStep info (nsAfter info ops) o := by unfold nsAfter; rw [List.foldl_append]; rfl
    have e2 : nsSpec (ops ++ [o]) = nsSpecStep (nsSpec ops) o := by unfold nsSpec; rw [List.foldl_append]; rfl
    rw [e1, e2]
    obtain ⟨ih1, ih2⟩ := ih
    cases o with
    | create p hp =>
      obtain ⟨c1, c2⟩ := ns_create info p.length _ p ih1 hp (le_refl _)
      have c2 := c2 (hnt ops [] p hp rfl)
      refine ⟨c1, fun q => (c2 q).trans ?_⟩
      simp only [nsSpecStep, Set.mem_setOf_eq, ih2]
    | drop p =>
      obtain ⟨c1, c2⟩ := ns_drop ih1 p
      refine ⟨c1, fun q => (c2 q).trans ?_⟩
      simp only [nsSpecStep, Set.mem_setOf_eq, ih2]
    | touch p f =>
      obtain ⟨c1, c2⟩ := ns_touch ih1 p f
      refine ⟨c1, fun q => (c2 q).trans ?_⟩
      simp only [nsSpecStep, ih2]

/-- Existing namespaces have existing ancestors. -/
def Closed (S : Set (List E)) : Prop := ∀ q ∈ S, ∀ r, r <+: q → r ≠ [] → r ∈ S

theorem insert_quiet {t : Trie E V} (h : NsInv t) (hc : ∀ q, nsExists t q = true → ∀ r, r <+: q → r ≠ [] → nsExists t r = true)
    (p : List E) (v : V) (hp : p ≠ []) (he : nsExists t p = false) : t.insertThrows p v = false := by
  obtain ⟨i1, i2⟩ := ns_insert h p v hp he
  unfold Trie.insertThrows
  cases hpe : p with
  | nil => rfl
  | cons a p' =>
    simp only
    rw [← hpe]
    cases hr : (t.insert p v).root with
    | none => simp
    | some r =>
      simp only
      cases ha : r.at p.dropLast with
      | none => simp
      | some m =>
        cases m with
        | mk vs ks =>
          cases ks with
          | nil => simp
          | cons e n rest =>
            simp only
            have hinv := i1.inv
            unfold Inv at hinv
            rw [hr] at hinv
            have hmw := at_WF _ r _ hinv.1 ha
            rw [WF_iff] at hmw
            have hf : (Kids.cons e n rest).find e = some n := by simp [Kids.find]
            obtain ⟨cw, cl⟩ := find_WF _ e n hmw hf
            obtain ⟨s, hs⟩ := live_obs n cw cl
            have hq : ∀ x, (t.insert p v).versions (p.dropLast ++ e :: x) = obs n x := by
              intro x
              unfold Trie.versions
              rw [hr]
              simp only
              rw [at_append, ha]
              show (match (Node.mk vs (Kids.cons e n rest)).at (e :: x) with | none => [] | some n => n.vers) = _
              rw [at_cons, hf]
              rfl
            have h1 : nsExists (t.insert p v) (p.dropLast ++ e :: s) = true := by
              rw [ns_versions_exists i1, hq]; exact hs
            have h2 : nsExists (t.insert p v) (p.dropLast ++ [e]) = true := by
              rw [i2] at h1 ⊢
              rcases h1 with h1 | h1
              · left
                have hl := congrArg List.length h1
                rw [List.length_append, List.length_dropLast, List.length_cons] at hl
                have := List.length_pos_of_ne_nil hp
                have hs0 : s = [] := List.length_eq_zero_iff.mp (by omega)
                rw [hs0] at h1
                exact h1
              · right
                refine hc _ h1 _ ?_ (by simp)
                exact ⟨s, by simp⟩
            rw [ns_versions_exists i1, hq] at h2
            have h3 : n.vers ≠ [] := by
              intro hn
              apply h2
              cases n
              exact hn
            simp [h3]

theorem closed_create {S : Set (List E)} (hc : Closed S) (p : List E) (q : List E)
    (hq : q ∈ S ∨ (q ≠ [] ∧ q <+: p ∧ ∀ r ∈ S, r <+: p → r.length < q.length)) (r : List E) (hr : r <+: q) (hr0 : r ≠ []) :
    r ∈ S ∨ (r ≠ [] ∧ r <+: p ∧ ∀ x ∈ S, x <+: p → x.length < r.length) := by
  rcases hq with hq | ⟨_, q2, _⟩
  · exact Or.inl (hc q hq r hr hr0)
  · by_cases hS : r ∈ S
    · exact Or.inl hS
    · right
      refine ⟨hr0, hr.trans q2, fun x hx hxp => ?_⟩
      by_contra hl
      exact hS (hc x hx r (List.prefix_of_prefix_length_le (hr.trans q2) hxp (by omega)) hr0)

theorem create_quiet (info : V) : ∀ (n : Nat) (t : Trie E V) (p : List E), NsInv t → p ≠ [] → p.length ≤ n →
    Closed {q | nsExists t q = true} → (createNs info n t p).2 = false
  | 0, t, p, h, hp, hl, _ => by
    exact absurd (List.length_eq_zero_iff.mp (by omega)) hp
  | n + 1, t, p, h, hp, hl, hc => by
    simp only [createNs]
    by_cases he : nsExists t p = true
    · rw [if_pos he]
    · have hef : nsExists t p = false := by simpa using he
      rw [if_neg he]
      by_cases h1 : 1 < p.length
      · rw [if_pos h1]
        by_cases hpe : nsExists t p.dropLast = true
        · rw [if_pos hpe, if_neg Bool.false_ne_true]
          exact insert_quiet h hc p info hp hef
        · rw [if_neg hpe]
          have hd : p.dropLast ≠ [] := by
            intro hc
            have := congrArg List.length hc
            rw [List.length_dropLast, List.length_nil] at this
            omega
          have hlen : p.dropLast.length ≤ n := by rw [List.length_dropLast]; omega
          have ih := create_quiet info n t p.dropLast h hd hlen hc
          obtain ⟨c1, c2⟩ := ns_create info n t p.dropLast h hd hlen
          have c2 := c2 ih
          rw [if_neg (by rw [ih]; exact Bool.false_ne_true)]
          have hef' : nsExists (createNs info n t p.dropLast).1 p = false := by
            by_contra hx
            rw [Bool.not_eq_false, c2 p] at hx
            rcases hx with hx | ⟨_, hx, _⟩
            · exact he hx
            · have := hx.length_le
              rw [List.length_dropLast] at this
              omega
          refine insert_quiet c1 ?_ p info hp hef'
          intro q hq r hr hr0
          rw [c2] at hq ⊢
          exact closed_create hc p.dropLast q hq r hr hr0
      · rw [if_neg h1, if_neg Bool.false_ne_true]
        exact insert_quiet h hc p info hp hef

theorem ns_quiet (info : V) (ops : List (NsOp E V)) : DropsLeaves ops → NoThrow info ops ∧ Closed (nsSpec ops) := by
  induction ops using List.reverseRecOn with
  | nil =>
    intro _
    exact ⟨fun pre post p hp he => by simp at he, fun q hq => absurd hq (Set.notMem_empty q)⟩
  | append_singleton ops o ih =>
    intro hd
    obtain ⟨ih1, ih2⟩ := ih (fun pre post p he => hd pre (post ++ [o]) p (by rw [he]; simp))
    obtain ⟨a1, a2⟩ := ns_all info ops ih1
    have e2 : nsSpec (ops ++ [o]) = nsSpecStep (nsSpec ops) o := by unfold nsSpec; rw [List.foldl_append]; rfl
    have hset : {q | nsExists (nsAfter info ops) q = true} = nsSpec ops := Set.ext a2
    constructor
    · intro pre post p hp he
      rcases List.eq_nil_or_concat post with rfl | ⟨post', b, rfl⟩
      · have := List.append_inj' he rfl
        rw [← this.1]
        exact create_quiet info p.length _ p a1 hp (le_refl _) (by rw [hset]; exact ih2)
      · have he' : ops ++ [o] = (pre ++ NsOp.create p hp :: post') ++ [b] := by rw [he]; simp
        exact ih1 pre post' p hp (List.append_inj' he' rfl).1
    · rw [e2]
      cases o with
      | create p hp =>
        intro q hq r hr hr0
        exact closed_create ih2 p q hq r hr hr0
      | drop p =>
        rintro q ⟨hq, hqp⟩ r hr hr0
        refine ⟨ih2 q hq r hr hr0, ?_⟩
        rintro rfl
        exact hqp (hd ops [] r rfl q hq hr)
      | touch p f => exact ih2

/-- If namespaces are dropped only when none is below them, no creation throws. -/
theorem C35_create_partial (info : V) (ops : List (NsOp E V)) (h : DropsLeaves ops) : NoThrow info ops := (ns_quiet info ops h).1

example : DropsLeaves ([.create [1, 2, 3] (by decide), .drop [1, 2, 3], .create [1, 4] (by decide)] : List (NsOp Nat Unit)) := by
  intro pre post p h q hq hpq
  rcases pre with _ | ⟨_, _ | ⟨_, _ | ⟨_, pre⟩⟩⟩ <;> simp at h
  obtain ⟨rfl, rfl, _⟩ := h
  have hq : q = [] ∨ q ≠ [] ∧ q <+: [1, 2, 3] := by
    right
    have : q ∈ nsSpecStep (V := Unit) ∅ (.create [1, 2, 3] (by decide)) := hq
    rcases this with h | ⟨h1, h2, _⟩
    · exact absurd h (Set.notMem_empty q)
    · exact ⟨h1, h2⟩
  rcases hq with rfl | ⟨_, hq⟩
  · simp at hpq
  · exact (hpq.eq_of_length (le_antisymm hpq.length_le hq.length_le)).symm

/-- The claim about creations. -/
def C35_create_claim : Prop := ∀ ops : List (NsOp Nat Unit), NoThrow () ops

/-- A namespace with a child is dropped; a later creation beside it throws, and what was to be made below is not. -/
theorem C35_create_fails : ¬ C35_create_claim ∧
    nsExists (nsAfter () [.create [1, 2, 3] (by decide), .drop [1, 2], .create [1, 4, 5] (by decide)] : Trie Nat Unit) [1, 4, 5] = false := by
  refine ⟨fun h => ?_, by decide +kernel⟩
  have := h [.create [1, 2, 3] (by decide), .drop [1, 2], .create [1, 4, 5] (by decide)]
    [.create [1, 2, 3] (by decide), .drop [1, 2]] [] [1, 4, 5] (by decide) rfl
  revert this
  decide +kernel

/-- After any history of creations and drops without an exception exactly the namespaces of the specification exist; they are listed in
order, each once; the roots are those of one part; the size is their number. -/
theorem C35_namespaces (info : V) (ops : List (NsOp E V)) (hnt : NoThrow info ops) :
    (∀ q, nsExists (nsAfter info ops) q = true ↔ q ∈ nsSpec ops) ∧
    (∀ q, q ∈ listAll (nsAfter info ops) ↔ q ∈ nsSpec ops) ∧
    (listAll (nsAfter info ops)).Pairwise (· < ·) ∧
    (∀ q, q ∈ listRoot (nsAfter info ops) ↔ q ∈ nsSpec ops ∧ q.length = 1) ∧
    nsSize (nsAfter info ops) = (listAll (nsAfter info ops)).length := by
  obtain ⟨h1, h2⟩ := ns_all info ops hnt
  have hmem : ∀ q, q ∈ listAll (nsAfter info ops) ↔ q ∈ nsSpec ops := by
    intro q
    rw [← h2 q, ns_versions_exists h1]
    have hinv := h1.inv
    unfold Inv at hinv
    unfold listAll Trie.elems
    rw [versions_eq]
    cases hr : (nsAfter info ops).root with
    | none => simp [obs']
    | some r =>
      rw [hr] at hinv
      simp only [obs', List.mem_map, Prod.exists]
      constructor
      · rintro ⟨a, b, hab, rfl⟩
        intro hc
        have := (mem_elems r hinv.1 a b).mp hab
        rw [hc] at this
        cases this
      · intro hq
        obtain ⟨v, hv⟩ : ∃ v, (obs r q).getLast?.map Ver.val = some v := by
          rw [← Option.ne_none_iff_exists', Ne, getLast_none]
          exact hq
        exact ⟨q, v, (mem_elems r hinv.1 q v).mpr hv, rfl⟩
  refine ⟨h2, hmem, ?_, ?_, ?_⟩
  · have hinv := h1.inv
    unfold Inv at hinv
    unfold listAll Trie.elems
    cases hr : (nsAfter info ops).root with
    | none => exact List.Pairwise.nil
    | some r =>
      rw [hr] at hinv
      exact elems_sorted r hinv.1
  · intro q
    rw [← hmem q]
    unfold listRoot listAll
    rw [List.mem_filter]
    simp
  · have hinv := h1.inv
    have hone := h1.one
    unfold Inv at hinv
    unfold nsSize listAll Trie.elems
    cases hr : (nsAfter info ops).root with
    | none =>
      rw [hr] at hinv
      exact hinv
    | some r =>
      rw [hr] at hinv
      rw [List.length_map, elems_length r hinv.1 (fun p => by have := hone p; rwa [versions_eq, hr] at this)]
      exact hinv.2.2

/-- Ancestors made on the way, an inner namespace dropped with a child left, made again. -/
def nsSample : List (NsOp Nat Unit) := [.create [1, 2, 3] (by decide), .create [1, 4] (by decide), .drop [1, 2], .create [5] (by decide),
  .drop [5], .create [1, 2] (by decide)]

theorem nsSample_quiet : NoThrow () nsSample := by
  intro pre post p hp h
  unfold nsSample at h
  rcases pre with _ | ⟨_, _ | ⟨_, _ | ⟨_, _ | ⟨_, _ | ⟨_, _ | ⟨_, pre⟩⟩⟩⟩⟩⟩ <;> simp at h
  · obtain ⟨rfl, _⟩ := h; decide +kernel
  · obtain ⟨rfl, rfl, _⟩ := h; decide +kernel
  · obtain ⟨rfl, rfl, rfl, rfl, _⟩ := h; decide +kernel
  · obtain ⟨rfl, rfl, rfl, rfl, rfl, rfl, _⟩ := h; decide +kernel

example : NoThrow () nsSample ∧ listAll (nsAfter () nsSample) = [[1], [1, 2], [1, 2, 3], [1, 4]] := ⟨nsSample_quiet, by decide +kernel⟩

theorem ns_at (t : Trie E V) (p : List E) (hv : t.versions p ≠ []) : ∃ r m, t.root = some r ∧ r.at p = some m ∧ m.vers = t.versions p := by
  unfold Trie.versions at hv ⊢
  cases hr : t.root with
  | none => rw [hr] at hv; exact absurd rfl hv
  | some r =>
    rw [hr] at hv
    simp only at hv ⊢
    cases ha : r.at p with
    | none => rw [ha] at hv; exact absurd rfl hv
    | some m => exact ⟨r, m, rfl, ha, rfl⟩

theorem versions_append {t : Trie E V} {r m : Node E V} {p : List E} (hr : t.root = some r) (ha : r.at p = some m) (q : List E) :
    t.versions (p ++ q) = obs m q := by
  unfold Trie.versions
  rw [hr]
  simp only
  rw [at_append, ha]
  rfl

/-- The children listed for a namespace, exactly: the next parts of the existing namespaces below it, in order, each
once.  And a namespace has children exactly if one exists below it. -/
theorem C35_children (info : V) (ops : List (NsOp E V)) (hnt : NoThrow info ops) (p : List E) (hp : p ∈ nsSpec ops) :
    (∀ q, q ∈ listChild (nsAfter info ops) p ↔ ∃ e r, q = p ++ [e] ∧ p ++ e :: r ∈ nsSpec ops) ∧
    (listChild (nsAfter info ops) p).Pairwise (· < ·) ∧
    (hasChild (nsAfter info ops) p = true ↔ ∃ e r, p ++ e :: r ∈ nsSpec ops) := by
  obtain ⟨h1, h2⟩ := ns_all info ops hnt
  have hpe := (h2 p).mpr hp
  have hv := (ns_versions_exists h1 p).mp hpe
  obtain ⟨r, m, hr, ha, hm⟩ := ns_at _ p hv
  have hinv := h1.inv
  unfold Inv at hinv
  rw [hr] at hinv
  have hmw := at_WF p r m hinv.1 ha
  obtain ⟨m1, m2⟩ := matchFrom_at p none r m ha
  have m2 := m2 (by rw [hm]; exact hv)
  have hlm : (nsAfter info ops).longestMatch p = (some m, m.kids.isNil) := by
    unfold Trie.longestMatch
    rw [hr]
    exact Prod.ext m2 m1
  have hlc : listChild (nsAfter info ops) p = m.kids.keys.map fun e => p ++ [e] := by
    unfold listChild
    rw [if_pos hpe, hlm]
    cases hn : m.kids.isNil with
    | false => rfl
    | true => rw [(isNil_iff _).mp hn]; rfl
  have hex : ∀ e s, p ++ e :: s ∈ nsSpec ops ↔ obs m (e :: s) ≠ [] := by
    intro e s
    rw [← h2, ns_versions_exists h1, versions_append hr ha]
  have hkw : m.kids.WF := by cases m; exact hmw
  have hoc : ∀ e s, obs m (e :: s) = obs' (m.kids.find e) s := by cases m; exact obs_cons _ _
  refine ⟨fun q => ?_, ?_, ?_⟩
  · rw [hlc, List.mem_map]
    constructor
    · rintro ⟨e, he, rfl⟩
      obtain ⟨c, hc⟩ := keys_find m.kids e hkw he
      obtain ⟨cw, cl⟩ := find_WF m.kids e c hkw hc
      obtain ⟨s, hs⟩ := live_obs c cw cl
      exact ⟨e, s, rfl, by rw [hex, hoc, hc]; exact hs⟩
    · rintro ⟨e, s, rfl, hs⟩
      rw [hex, hoc] at hs
      refine ⟨e, ?_, rfl⟩
      cases hf : m.kids.find e with
      | none => rw [hf] at hs; exact absurd rfl hs
      | some c => exact find_keys m.kids e c hf
  · rw [hlc, List.pairwise_map]
    apply (keys_sorted m.kids hkw).imp
    intro a b hab
    have : ∀ l : List E, l ++ [a] < l ++ [b] := by
      intro l
      induction l with
      | nil => exact List.cons_lt_cons_iff.mpr (Or.inl hab)
      | cons x l ih => exact List.cons_lt_cons_iff.mpr (Or.inr ⟨rfl, ih⟩)
    exact this p
  · unfold hasChild
    rw [hlm]
    simp only [Bool.not_eq_true']
    constructor
    · intro hn
      obtain ⟨e, s, hs⟩ := klive_obs m.kids hkw hn
      exact ⟨e, s, by rw [hex, hoc]; exact hs⟩
    · rintro ⟨e, s, hs⟩
      rw [hex, hoc] at hs
      cases hf : m.kids.find e with
      | none => rw [hf] at hs; exact absurd rfl hs
      | some c => exact find_not_nil hf

example : NoThrow () nsSample ∧ [1] ∈ nsSpec nsSample :=
  ⟨nsSample_quiet, by rw [← (ns_all () _ nsSample_quiet).2]; decide +kernel⟩

/-- The claim about children: those listed exist. -/
def C35_children_claim : Prop :=
  ∀ ops : List (NsOp Nat Unit), NoThrow () ops → ∀ p q, q ∈ listChild (nsAfter () ops) p → nsExists (nsAfter () ops) q = true

/-- A dropped namespace with a child is still listed as a child of its parent. -/
theorem C35_children_fails : ¬ C35_children_claim := by
  intro h
  have := h [.create [1, 2, 3] (by decide), .drop [1, 2]] (by
    intro pre post p hp h
    rcases pre with _ | ⟨_, _ | ⟨_, pre⟩⟩ <;> simp at h
    obtain ⟨rfl, _⟩ := h; decide +kernel) [1] [1, 2] (by decide +kernel)
  revert this
  decide +kernel

/-- Asking a namespace that does not exist for children: yes, although nothing is below it. -/
theorem C35_has_child_fails : hasChild (nsAfter () [.create [1, 2] (by decide)] : Trie Nat Unit) [1, 3] = true := by decide +kernel

end Verif.Trie
