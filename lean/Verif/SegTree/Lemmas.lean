import Verif.SegTree.Model
import Verif.Block.Props
/-!
Helper lemmas about sequences of pages.
-/
namespace Verif.Seg
open Verif.Block
set_option linter.unusedSectionVars false
variable {K : Type} [LinearOrder K] [BoundedOrder K]

/-- The entries of a sequence of pages, in order. -/
def flat (bs : List (Block K)) : List (K × Bytes) := bs.flatMap iterate

/-- The size of a page, core/b_plus_tree/block.hpp:21. -/
def PAGE : Nat := 262144

/-- A sequence of pages as it is between calls. -/
structure Pg (bs : List (Block K)) : Prop where
  inv : ∀ b ∈ bs, Inv b
  ne : ∀ b ∈ bs, entries b ≠ []
  sz : ∀ b ∈ bs, PAGE ≤ b.full
  sorted : ((flat bs).map Prod.fst).Pairwise (· ≤ ·)

theorem flat_append (a c : List (Block K)) : flat (a ++ c) = flat a ++ flat c := by
  unfold flat; rw [List.flatMap_append]

theorem flat_cons (b : Block K) (c : List (Block K)) : flat (b :: c) = iterate b ++ flat c := by
  unfold flat; rw [List.flatMap_cons]

@[simp] theorem flat_nil : flat ([] : List (Block K)) = [] := rfl

theorem flat_single (b : Block K) : flat [b] = iterate b := by rw [flat_cons, flat_nil, List.append_nil]

theorem mem_flat {bs : List (Block K)} {e : K × Bytes} : e ∈ flat bs ↔ ∃ b ∈ bs, e ∈ iterate b := by
  unfold flat; rw [List.mem_flatMap]

theorem mem_iterate {b : Block K} {e : K × Bytes} : e ∈ iterate b ↔ e ∈ entries b := by
  rw [iterate_eq, List.mem_reverse]

theorem iterate_perm (b : Block K) : (iterate b).Perm (entries b) := by
  rw [iterate_eq]; exact List.reverse_perm _

theorem sorted_append {a c : List (K × Bytes)} : ((a ++ c).map Prod.fst).Pairwise (· ≤ ·) ↔
    (a.map Prod.fst).Pairwise (· ≤ ·) ∧ (c.map Prod.fst).Pairwise (· ≤ ·) ∧ ∀ e ∈ a, ∀ f ∈ c, e.1 ≤ f.1 := by
  rw [List.map_append, List.pairwise_append]
  constructor
  · rintro ⟨h1, h2, h3⟩
    exact ⟨h1, h2, fun e he f hf => h3 _ (List.mem_map.mpr ⟨e, he, rfl⟩) _ (List.mem_map.mpr ⟨f, hf, rfl⟩)⟩
  · rintro ⟨h1, h2, h3⟩
    refine ⟨h1, h2, ?_⟩
    intro p hp q hq
    obtain ⟨e, he, rfl⟩ := List.mem_map.mp hp
    obtain ⟨f, hf, rfl⟩ := List.mem_map.mp hq
    exact h3 e he f hf

theorem Pg.append {a c : List (Block K)} : Pg (a ++ c) ↔ Pg a ∧ Pg c ∧ ∀ e ∈ flat a, ∀ f ∈ flat c, e.1 ≤ f.1 := by
  constructor
  · intro h
    have hs := h.sorted
    rw [flat_append, sorted_append] at hs
    exact ⟨⟨fun b hb => h.inv b (List.mem_append_left _ hb), fun b hb => h.ne b (List.mem_append_left _ hb),
      fun b hb => h.sz b (List.mem_append_left _ hb), hs.1⟩,
      ⟨fun b hb => h.inv b (List.mem_append_right _ hb), fun b hb => h.ne b (List.mem_append_right _ hb),
      fun b hb => h.sz b (List.mem_append_right _ hb), hs.2.1⟩, hs.2.2⟩
  · rintro ⟨h1, h2, h3⟩
    refine ⟨?_, ?_, ?_, ?_⟩
    · intro b hb
      rcases List.mem_append.mp hb with hb | hb
      · exact h1.inv b hb
      · exact h2.inv b hb
    · intro b hb
      rcases List.mem_append.mp hb with hb | hb
      · exact h1.ne b hb
      · exact h2.ne b hb
    · intro b hb
      rcases List.mem_append.mp hb with hb | hb
      · exact h1.sz b hb
      · exact h2.sz b hb
    · rw [flat_append, sorted_append]
      exact ⟨h1.sorted, h2.sorted, h3⟩

theorem Pg.nil : Pg ([] : List (Block K)) :=
  ⟨fun _ h => (List.not_mem_nil h).elim, fun _ h => (List.not_mem_nil h).elim, fun _ h => (List.not_mem_nil h).elim, List.Pairwise.nil⟩

theorem Pg.single {b : Block K} (h1 : Inv b) (h2 : entries b ≠ []) (h3 : PAGE ≤ b.full) : Pg [b] := by
  refine ⟨?_, ?_, ?_, ?_⟩
  · intro c hc; obtain rfl := List.mem_singleton.mp hc; exact h1
  · intro c hc; obtain rfl := List.mem_singleton.mp hc; exact h2
  · intro c hc; obtain rfl := List.mem_singleton.mp hc; exact h3
  · rw [flat_single]; exact iterate_sorted h1

/-- Pages replaced by others whose keys fit between the neighbours. -/
theorem Pg.replace {L old new R : List (Block K)} (h : Pg (L ++ old ++ R)) (hn : Pg new)
    (hl : ∀ e ∈ flat new, ∀ f ∈ flat L, f.1 ≤ e.1) (hr : ∀ e ∈ flat new, ∀ f ∈ flat R, e.1 ≤ f.1) : Pg (L ++ new ++ R) := by
  obtain ⟨h1, h2, h3⟩ := Pg.append.mp h
  obtain ⟨h4, h5, h6⟩ := Pg.append.mp h1
  refine Pg.append.mpr ⟨Pg.append.mpr ⟨h4, hn, fun e he f hf => hl f hf e he⟩, h2, ?_⟩
  intro e he f hf
  rw [flat_append] at he
  rcases List.mem_append.mp he with he | he
  · exact h3 e (by rw [flat_append]; exact List.mem_append_left _ he) f hf
  · exact hr e he f hf

/-- Pages replaced by pages with one more entry. -/
theorem Pg.grow {L old new R : List (Block K)} {k : K} {x : Bytes} (h : Pg (L ++ old ++ R)) (hn : Pg new)
    (hp : (flat new).Perm ((k, x) :: flat old)) (hl : ∀ e ∈ flat L, e.1 ≤ k) (hr : ∀ e ∈ flat R, k ≤ e.1) :
    Pg (L ++ new ++ R) ∧ (flat (L ++ new ++ R)).Perm ((k, x) :: flat (L ++ old ++ R)) := by
  obtain ⟨h1, h2, h3⟩ := Pg.append.mp h
  obtain ⟨h4, h5, h6⟩ := Pg.append.mp h1
  constructor
  · refine h.replace hn ?_ ?_
    · intro e he f hf
      rcases List.mem_cons.mp (hp.mem_iff.mp he) with rfl | he
      · exact hl f hf
      · exact h6 f hf e he
    · intro e he f hf
      rcases List.mem_cons.mp (hp.mem_iff.mp he) with rfl | he
      · exact hr f hf
      · exact h3 e (by rw [flat_append]; exact List.mem_append_right _ he) f hf
  · simp only [flat_append]
    exact ((hp.append_left _).append_right _).trans ((List.perm_middle.append_right _))

/-! ### the bounds of a page -/

theorem bmin_head {b : Block K} (h : Inv b) (hne : entries b ≠ []) : ∃ e ∈ iterate b, e.1 = bmin b := by
  have hq := (C13_questions h ⊥ []).2.2.2.2.2.1
  cases hi : iterate b with
  | nil =>
    rw [iterate_eq] at hi
    exact absurd (List.reverse_eq_nil_iff.mp hi) hne
  | cons e l =>
    refine ⟨e, List.mem_cons_self .., ?_⟩
    unfold bmin
    rw [hq, hi]
    rfl

theorem bmin_le {b : Block K} (h : Inv b) {e : K × Bytes} (he : e ∈ iterate b) : bmin b ≤ e.1 := by
  have hq := (C13_questions h ⊥ []).2.2.2.2.2.1
  have hs := iterate_sorted h
  unfold bmin
  rw [hq]
  cases hi : iterate b with
  | nil => rw [hi] at he; cases he
  | cons f l =>
    rw [hi] at he hs
    rw [List.map_cons] at hs
    rcases List.mem_cons.mp he with rfl | he'
    · exact le_refl _
    · exact (List.pairwise_cons.mp hs).1 _ (List.mem_map.mpr ⟨e, he', rfl⟩)

theorem bmax_last {b : Block K} (h : Inv b) (hne : entries b ≠ []) : ∃ e ∈ iterate b, e.1 = bmax b := by
  have hq := (C13_questions h ⊥ []).2.2.2.2.2.2
  have hi : iterate b ≠ [] := by
    rw [iterate_eq]
    exact fun hc => hne (List.reverse_eq_nil_iff.mp hc)
  refine ⟨(iterate b).getLast hi, List.getLast_mem hi, ?_⟩
  unfold bmax
  rw [hq, List.getLast?_map, List.getLast?_eq_some_getLast hi]
  rfl

theorem le_bmax {b : Block K} (h : Inv b) {e : K × Bytes} (he : e ∈ iterate b) : e.1 ≤ bmax b := by
  have hq := (C13_questions h ⊥ []).2.2.2.2.2.2
  have hs := iterate_sorted h
  have hi : iterate b ≠ [] := List.ne_nil_of_mem he
  unfold bmax
  rw [hq, List.getLast?_map, List.getLast?_eq_some_getLast hi]
  show e.1 ≤ ((iterate b).getLast hi).1
  have hd : iterate b = (iterate b).dropLast ++ [(iterate b).getLast hi] := (List.dropLast_append_getLast hi).symm
  rw [hd] at he
  rcases List.mem_append.mp he with he' | he'
  · rw [hd, sorted_append] at hs
    exact hs.2.2 e he' _ (List.mem_singleton.mpr rfl)
  · rw [List.mem_singleton.mp he']

/-! ### the range of a key -/

theorem blocks_split (s : Seg K) (k : K) : s.blocks = lo s k ++ fromB s k := (List.takeWhile_append_dropWhile).symm

theorem fromB_split (s : Seg K) (k : K) : fromB s k = mid s k ++ hi s k := (List.takeWhile_append_dropWhile).symm

theorem lo_lt {s : Seg K} (h : Pg s.blocks) {k : K} {e : K × Bytes} (he : e ∈ flat (lo s k)) : e.1 < k := by
  obtain ⟨b, hb, heb⟩ := mem_flat.mp he
  have h1 := mem_takeWhile_imp hb
  have hbb : b ∈ s.blocks := by rw [blocks_split s k]; exact List.mem_append_left _ hb
  exact lt_of_le_of_lt (le_bmax (h.inv b hbb) heb) (of_decide_eq_true h1)

theorem fromB_head {s : Seg K} {k : K} {b : Block K} {l : List (Block K)} (he : fromB s k = b :: l) : k ≤ bmax b := by
  have := List.head_dropWhile_not (fun b => decide (bmax b < k)) (l := s.blocks) (by
    show fromB s k ≠ []
    rw [he]; exact List.cons_ne_nil _ _)
  have h2 : (List.dropWhile (fun b => decide (bmax b < k)) s.blocks).head (by
    show fromB s k ≠ []
    rw [he]; exact List.cons_ne_nil _ _) = b := by
    have : (fromB s k).head? = some b := by rw [he]; rfl
    exact (List.head_eq_iff_head?_eq_some _).mpr this
  rw [h2] at this
  exact not_lt.mp (of_decide_eq_false this)

theorem hi_head {s : Seg K} {k : K} {b : Block K} {l : List (Block K)} (he : hi s k = b :: l) : k < bmin b := by
  have hne : hi s k ≠ [] := by rw [he]; exact List.cons_ne_nil _ _
  have := List.head_dropWhile_not (fun b => decide (bmin b ≤ k)) (l := fromB s k) hne
  have h2 : (List.dropWhile (fun b => decide (bmin b ≤ k)) (fromB s k)).head hne = b := by
    have : (hi s k).head? = some b := by rw [he]; rfl
    exact (List.head_eq_iff_head?_eq_some _).mpr this
  rw [h2] at this
  exact not_le.mp (of_decide_eq_false this)

theorem hi_gt {s : Seg K} (h : Pg s.blocks) {k : K} {e : K × Bytes} (he : e ∈ flat (hi s k)) : k < e.1 := by
  cases hc : hi s k with
  | nil => rw [hc] at he; cases he
  | cons b l =>
    have hk := hi_head hc
    have hp : Pg (hi s k) := by
      have h1 := blocks_split s k
      rw [fromB_split] at h1
      rw [h1] at h
      exact (Pg.append.mp (Pg.append.mp h).2.1).2.1
    rw [hc] at hp he
    have hib := hp.inv b (List.mem_cons_self ..)
    rw [flat_cons] at he
    rcases List.mem_append.mp he with he | he
    · exact lt_of_lt_of_le hk (bmin_le hib he)
    · obtain ⟨f, hf, hf'⟩ := bmin_head hib (hp.ne b (List.mem_cons_self ..))
      have hs := hp.sorted
      rw [flat_cons, sorted_append] at hs
      exact lt_of_lt_of_le hk (hf' ▸ hs.2.2 f hf e he)

theorem fromB_tail_ge {s : Seg K} (h : Pg s.blocks) {k : K} {b : Block K} {l : List (Block K)} (he : fromB s k = b :: l)
    {e : K × Bytes} (hel : e ∈ flat l) : k ≤ e.1 := by
  have hp : Pg (fromB s k) := by
    rw [blocks_split s k] at h
    exact (Pg.append.mp h).2.1
  rw [he] at hp
  have hs := hp.sorted
  rw [flat_cons, sorted_append] at hs
  obtain ⟨f, hf, hf'⟩ := bmax_last (hp.inv b (List.mem_cons_self ..)) (hp.ne b (List.mem_cons_self ..))
  exact le_trans (fromB_head he) (hf' ▸ hs.2.2 f hf e hel)

theorem mid_min {s : Seg K} {k : K} {b : Block K} (hb : b ∈ mid s k) : bmin b ≤ k := by
  have := mem_takeWhile_imp hb
  exact of_decide_eq_true this

theorem pg_mid {s : Seg K} (h : Pg s.blocks) (k : K) : Pg (mid s k) ∧ Pg (lo s k) ∧ Pg (hi s k) := by
  have h1 := blocks_split s k
  rw [fromB_split] at h1
  rw [h1] at h
  have h2 := Pg.append.mp h
  have h3 := Pg.append.mp h2.2.1
  exact ⟨h3.1, h2.1, h3.2.1⟩

/-- The entries under a key all lie in the range. -/
theorem mem_key {s : Seg K} (h : Pg s.blocks) {k : K} {x : Bytes} : (k, x) ∈ flat s.blocks ↔ (k, x) ∈ flat (mid s k) := by
  have h1 := blocks_split s k
  rw [fromB_split] at h1
  constructor
  · intro hm
    rw [h1, flat_append, flat_append] at hm
    rcases List.mem_append.mp hm with hm | hm
    · exact absurd (lo_lt h hm) (lt_irrefl _)
    · rcases List.mem_append.mp hm with hm | hm
      · exact hm
      · exact absurd (hi_gt h hm) (lt_irrefl _)
  · intro hm
    rw [h1, flat_append, flat_append]
    exact List.mem_append_right _ (List.mem_append_left _ hm)

theorem filter_key {s : Seg K} (h : Pg s.blocks) (k : K) :
    (flat s.blocks).filter (·.1 = k) = (flat (mid s k)).filter (·.1 = k) := by
  have h1 := blocks_split s k
  rw [fromB_split] at h1
  conv_lhs => rw [h1, flat_append, flat_append, List.filter_append, List.filter_append]
  have e1 : (flat (lo s k)).filter (fun e => decide (e.1 = k)) = [] := by
    rw [List.filter_eq_nil_iff]
    intro e he
    simpa using ne_of_lt (lo_lt h he)
  have e2 : (flat (hi s k)).filter (fun e => decide (e.1 = k)) = [] := by
    rw [List.filter_eq_nil_iff]
    intro e he
    simpa using ne_of_gt (hi_gt h he)
  rw [e1, e2, List.nil_append, List.append_nil]

end Verif.Seg
