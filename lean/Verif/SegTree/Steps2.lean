import Verif.SegTree.Steps
/-!
Removal of a key, splitting and balancing of segment trees.
-/
namespace Verif.Seg
open Verif.Block
set_option linter.unusedSectionVars false
variable {K : Type} [LinearOrder K] [BoundedOrder K]

/-- A page with one key holds only that key. -/
theorem uniq_one {b : Block K} (h : Inv b) (hu : b.uniq = 1) {k : K} (hk : ∃ y, (k, y) ∈ iterate b) :
    ∀ e ∈ iterate b, e.1 = k := by
  obtain ⟨y, hy⟩ := hk
  intro e he
  have hu' := h.unq
  rw [hu] at hu'
  unfold distinctKeys at hu'
  rw [← entries_keys] at hu'
  obtain ⟨a, ha⟩ := Finset.card_eq_one.mp hu'.symm
  have h1 : e.1 ∈ ((entries b).map Prod.fst).toFinset := List.mem_toFinset.mpr (List.mem_map.mpr ⟨e, mem_iterate.mp he, rfl⟩)
  have h2 : k ∈ ((entries b).map Prod.fst).toFinset := List.mem_toFinset.mpr (List.mem_map.mpr ⟨_, mem_iterate.mp hy, rfl⟩)
  rw [ha, Finset.mem_singleton] at h1 h2
  rw [h1, h2]

theorem uniq_other {b : Block K} (h : Inv b) (hu : b.uniq ≠ 1) {k : K} (hk : ∃ y, (k, y) ∈ iterate b) :
    ∃ e ∈ entries b, e.1 ≠ k := by
  obtain ⟨y, hy⟩ := hk
  by_contra hc
  have hall : ∀ e ∈ entries b, e.1 = k := by
    intro e he
    by_contra hcc
    exact hc ⟨e, he, hcc⟩
  apply hu
  rw [h.unq]
  unfold distinctKeys
  rw [← entries_keys]
  apply Finset.card_eq_one.mpr
  refine ⟨k, ?_⟩
  ext a
  rw [List.mem_toFinset, Finset.mem_singleton]
  constructor
  · intro ha
    obtain ⟨e, he, rfl⟩ := List.mem_map.mp ha
    exact hall e he
  · rintro rfl
    exact List.mem_map.mpr ⟨_, mem_iterate.mp hy, rfl⟩

theorem block_count {b : Block K} (h : Inv b) : b.count = (iterate b).length := by
  rw [h.cnt, iterate_eq, List.length_reverse]
  unfold entries
  rw [List.length_map]

theorem filter_split_length (l : List (K × Bytes)) (k : K) :
    (l.filter (·.1 = k)).length + (l.filter (·.1 ≠ k)).length = l.length := by
  induction l with
  | nil => rfl
  | cons e l ih =>
    by_cases he : e.1 = k
    · simp [he] at ih ⊢; omega
    · simp [he] at ih ⊢; omega

theorem dropEnd_ok {b : Block K} (h : Pg [b]) {k : K} (hk : ∃ y, (k, y) ∈ iterate b) :
    ∃ fs, dropEnd b k = some (fs, ((iterate b).filter (·.1 = k)).length) ∧ Pg fs ∧ flat fs = (iterate b).filter (·.1 ≠ k) := by
  have hib := h.inv b (List.mem_singleton.mpr rfl)
  unfold dropEnd
  by_cases hu : b.uniq = 1
  · rw [if_pos hu]
    have hall := uniq_one hib hu hk
    have h1 : (iterate b).filter (·.1 ≠ k) = [] := by
      rw [List.filter_eq_nil_iff]
      intro e he
      simpa using hall e he
    refine ⟨[], ?_, Pg.nil, by rw [h1]; rfl⟩
    have h2 := filter_split_length (iterate b) k
    rw [h1, List.length_nil, Nat.add_zero] at h2
    rw [h2, block_count hib]
  · rw [if_neg hu]
    obtain ⟨y, hy⟩ := hk
    obtain ⟨b', e1, e2, e3, e4⟩ := removeIndex_ok hib (k := k) (by
      rw [← entries_keys]; exact List.mem_map.mpr ⟨_, mem_iterate.mp hy, rfl⟩)
    rw [e1]
    obtain ⟨e, he, hek⟩ := uniq_other hib hu ⟨y, hy⟩
    refine ⟨[b'], ?_, Pg.single e2 ?_ ?_, ?_⟩
    · rw [← (C13_questions hib k []).2.2.2.1]; rfl
    · rw [e3]
      exact List.ne_nil_of_mem (List.mem_filter.mpr ⟨he, by simpa using hek⟩)
    · rw [e4]; exact h.sz b (List.mem_singleton.mpr rfl)
    · rw [flat_single, iterate_eq, e3, iterate_eq, List.filter_reverse]

theorem card_filter_key {l : List (K × Bytes)} {k : K} (hk : k ∈ l.map Prod.fst) :
    ((l.filter (·.1 ≠ k)).map Prod.fst).toFinset.card = (l.map Prod.fst).toFinset.card - 1 := by
  have : ((l.filter (·.1 ≠ k)).map Prod.fst).toFinset = (l.map Prod.fst).toFinset.erase k := by
    ext a
    simp only [List.mem_toFinset, List.mem_map, List.mem_filter, Finset.mem_erase, decide_eq_true_eq]
    constructor
    · rintro ⟨e, ⟨h1, h2⟩, rfl⟩
      exact ⟨h2, e, h1, rfl⟩
    · rintro ⟨h1, e, h2, rfl⟩
      exact ⟨e, ⟨h2, h1⟩, rfl⟩
  rw [this, Finset.card_erase_of_mem (List.mem_toFinset.mpr hk)]

theorem filter_all_ne {l : List (K × Bytes)} {k : K} (h : ∀ e ∈ l, e.1 ≠ k) : l.filter (·.1 ≠ k) = l := by
  rw [List.filter_eq_self]
  intro e he
  simpa using h e he

theorem filter_all_eq {l : List (K × Bytes)} {k : K} (h : ∀ e ∈ l, e.1 = k) : l.filter (·.1 ≠ k) = [] := by
  rw [List.filter_eq_nil_iff]
  intro e he
  simpa using h e he

theorem flat_counts : ∀ {bs : List (Block K)}, (∀ b ∈ bs, Inv b) → (bs.map (·.count)).sum = (flat bs).length := by
  intro bs
  induction bs with
  | nil => intro _; rfl
  | cons b bs ih =>
    intro h
    rw [List.map_cons, List.sum_cons, flat_cons, List.length_append, block_count (h b (List.mem_cons_self ..)),
      ih (fun c hc => h c (List.mem_cons_of_mem _ hc))]

theorem removeIndex_absent' {s : Seg K} (h : SInv s) {k : K} (hk : k ∉ (flat s.blocks).map Prod.fst) :
    removeIndex s k = some (s, false) := by
  unfold removeIndex
  have hci : containsIndex s k = false := by
    cases hc : containsIndex s k with
    | false => rfl
    | true => exact absurd (mem_keys.mpr ((containsIndex_iff h.pg k).mp hc)) hk
  unfold containsIndex at hci
  cases hf : fromB s k with
  | nil => rfl
  | cons b l =>
    rw [hf] at hci
    have hci' : Block.containsIndex b k = false := hci
    simp only [hci', Bool.not_false, if_true]

theorem removeIndex_present {s : Seg K} (h : SInv s) {k : K} (hk : k ∈ (flat s.blocks).map Prod.fst) :
    ∃ s', removeIndex s k = some (s', true) ∧ SInv s' ∧ flat s'.blocks = (flat s.blocks).filter (·.1 ≠ k) := by
  obtain ⟨x, hx⟩ := mem_keys.mp hk
  obtain ⟨b, l, hf, hb⟩ := head_has h.pg hx
  have hsp : s.blocks = lo s k ++ mid s k ++ hi s k := by
    rw [List.append_assoc, ← fromB_split, ← blocks_split]
  have hci : Block.containsIndex b k = true := by
    have := (containsIndex_iff h.pg k).mpr ⟨x, hx⟩
    unfold containsIndex at this
    rw [hf] at this
    exact this
  unfold removeIndex
  rw [hf]
  simp only [hci, Bool.not_true, Bool.false_eq_true, if_false]
  have hx' := (mem_key h.pg).mp hx
  cases hm : mid s k with
  | nil => rw [hm] at hx'; cases hx'
  | cons f rest =>
    simp only
    have hfb : f = b := by
      have := fromB_split s k
      rw [hf, hm] at this
      exact (List.cons.inj this).1.symm
    subst hfb
    have hpm := (pg_mid h.pg k).1
    rw [hm] at hpm
    have hpm' : Pg ([f] ++ rest) := hpm
    obtain ⟨hpf, hprest, hfr⟩ := Pg.append.mp hpm'
    obtain ⟨fs, d1, d2, d3⟩ := dropEnd_ok hpf hb
    rw [d1]
    simp only [Option.bind_some]
    have hlo : (flat (lo s k)).filter (·.1 ≠ k) = flat (lo s k) := filter_all_ne fun e he => ne_of_lt (lo_lt h.pg he)
    have hhi : (flat (hi s k)).filter (·.1 ≠ k) = flat (hi s k) := filter_all_ne fun e he => ne_of_gt (hi_gt h.pg he)
    have hpg := h.pg
    rw [hsp, hm] at hpg
    have hge : ∀ e ∈ flat rest, k ≤ e.1 := by
      intro e he
      refine fromB_tail_ge h.pg hf (e := e) ?_
      have := fromB_split s k
      rw [hf, hm] at this
      have h2 : l = rest ++ hi s k := (List.cons.inj this).2
      rw [h2, flat_append]
      exact List.mem_append_left _ he
    have hkey : k ∈ (flat s.blocks).map Prod.fst := hk
    have hlen := filter_split_length (flat s.blocks) k
    rcases getLast_cases rest with hnil | ⟨q, hl, hd⟩
    · subst hnil
      simp only [List.getLast?_nil]
      have hfl : flat (lo s k ++ fs ++ hi s k) = (flat s.blocks).filter (·.1 ≠ k) := by
        conv_rhs => rw [hsp, hm, flat_append, flat_append, flat_single, List.filter_append, List.filter_append, hlo, hhi]
        rw [flat_append, flat_append, d3]
      refine ⟨_, rfl, h.without ?_ hfl ?_ ?_, hfl⟩
      · exact hpg.part d2 (by
          intro e he
          rw [d3] at he
          rw [flat_single]
          exact (List.mem_filter.mp he).1)
      · have : (flat s.blocks).filter (·.1 = k) = (iterate f).filter (·.1 = k) := by
          rw [filter_key h.pg, hm, flat_single]
        rw [← this, h.cnt]
        omega
      · rw [card_filter_key hk, h.unq]
    · rw [hl]
      simp only
      have hqm : q ∈ mid s k := by rw [hm, hd]; simp
      have hpr' := hprest
      rw [hd] at hpr'
      obtain ⟨hpm1, hpq, hmq⟩ := Pg.append.mp hpr'
      have hiq := hpq.inv q (List.mem_singleton.mpr rfl)
      have hqmin : bmin q = k := by
        refine le_antisymm (mid_min hqm) ?_
        obtain ⟨e, he, hek⟩ := bmin_head hiq (hpq.ne q (List.mem_singleton.mpr rfl))
        rw [← hek]
        refine hge e ?_
        rw [hd, flat_append, flat_single]
        exact List.mem_append_right _ he
      have hqk : ∃ y, (k, y) ∈ iterate q := by
        obtain ⟨e, he, hek⟩ := bmin_head hiq (hpq.ne q (List.mem_singleton.mpr rfl))
        exact ⟨e.2, by rw [← hqmin, ← hek]; exact he⟩
      have hmidk : ∀ e ∈ flat rest.dropLast, e.1 = k := by
        intro e he
        obtain ⟨g, hg, hgk⟩ := bmin_head hiq (hpq.ne q (List.mem_singleton.mpr rfl))
        refine le_antisymm ?_ (hge e (by rw [hd, flat_append]; exact List.mem_append_left _ he))
        have := hmq e he g (by rw [flat_single]; exact hg)
        rwa [hgk, hqmin] at this
      obtain ⟨ls, c1, c2, c3⟩ := dropEnd_ok hpq hqk
      rw [c1]
      simp only [Option.map_some]
      have hmidf : flat (mid s k) = iterate f ++ (flat rest.dropLast ++ iterate q) := by
        rw [hm, flat_cons]
        conv_lhs => rw [hd]
        rw [flat_append, flat_single]
      have hfl : flat (lo s k ++ fs ++ ls ++ hi s k) = (flat s.blocks).filter (·.1 ≠ k) := by
        conv_rhs => rw [hsp, flat_append, flat_append, hmidf, List.filter_append, List.filter_append, List.filter_append,
          List.filter_append, hlo, hhi, filter_all_eq hmidk]
        rw [flat_append, flat_append, flat_append, d3, c3]
        simp
      refine ⟨_, rfl, h.without ?_ hfl ?_ ?_, hfl⟩
      · have hall : Pg (fs ++ ls) := by
          refine Pg.append.mpr ⟨d2, c2, ?_⟩
          intro e he g hg
          rw [d3] at he
          rw [c3] at hg
          refine hfr e (by rw [flat_single]; exact (List.mem_filter.mp he).1) g ?_
          rw [hd, flat_append, flat_single]
          exact List.mem_append_right _ (List.mem_filter.mp hg).1
        have := hpg.part hall (by
          intro e he
          rw [← hm, hmidf]
          rw [flat_append] at he
          rcases List.mem_append.mp he with he | he
          · rw [d3] at he
            exact List.mem_append_left _ (List.mem_filter.mp he).1
          · rw [c3] at he
            exact List.mem_append_right _ (List.mem_append_right _ (List.mem_filter.mp he).1))
        simpa [List.append_assoc] using this
      · have e1 : (flat s.blocks).filter (·.1 = k) = (iterate f).filter (·.1 = k) ++ (flat rest.dropLast ++ (iterate q).filter (·.1 = k)) := by
          rw [filter_key h.pg, hmidf, List.filter_append, List.filter_append]
          congr 2
          rw [List.filter_eq_self]
          intro e he
          simpa using hmidk e he
        have e2 := flat_counts (bs := rest.dropLast) hpm1.inv
        have e3 := congrArg List.length e1
        rw [List.length_append, List.length_append] at e3
        rw [h.cnt, e2]
        omega
      · rw [card_filter_key hk, h.unq]

end Verif.Seg
