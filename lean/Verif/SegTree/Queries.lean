import Verif.SegTree.Lemmas
/-!
What the questions to a segment tree answer.
-/
namespace Verif.Seg
open Verif.Block
set_option linter.unusedSectionVars false
variable {K : Type} [LinearOrder K] [BoundedOrder K]

theorem block_absent {b : Block K} (h : Inv b) {k : K} (hk : ∀ e ∈ iterate b, e.1 ≠ k) :
    Block.itemCount b k = 0 ∧ (∀ x, Block.contains b k x = false) ∧ Block.containsIndex b k = false ∧
      Block.getItems b k = [] ∧ ∀ i, Block.getItem b k i = none := by
  have hq := C13_questions h k
  have hf : (iterate b).filter (fun e => decide (e.1 = k)) = [] := by
    rw [List.filter_eq_nil_iff]
    intro e he
    simpa using hk e he
  have hg : Block.getItems b k = [] := by
    have := (hq []).2.2.1
    rw [hf] at this
    exact List.Perm.eq_nil this
  refine ⟨by rw [(hq []).2.2.2.1, hf]; rfl, ?_, ?_, hg, ?_⟩
  · intro x
    cases hc : Block.contains b k x with
    | false => rfl
    | true => exact absurd rfl (hk _ ((hq x).1.mp hc))
  · cases hc : Block.containsIndex b k with
    | false => rfl
    | true =>
      obtain ⟨y, hy⟩ := (hq []).2.1.mp hc
      exact absurd rfl (hk _ hy)
  · intro i
    rw [(hq []).2.2.2.2.1 i, hg]
    rfl

/-- The first page of the range holds the key if any page does. -/
theorem head_has {s : Seg K} (h : Pg s.blocks) {k : K} {x : Bytes} (hm : (k, x) ∈ flat s.blocks) :
    ∃ b l, fromB s k = b :: l ∧ ∃ y, (k, y) ∈ iterate b := by
  have hm' := (mem_key h).mp hm
  cases hf : mid s k with
  | nil => rw [hf] at hm'; cases hm'
  | cons b l =>
    have hp := (pg_mid h k).1
    rw [hf] at hp hm'
    refine ⟨b, l ++ hi s k, by rw [fromB_split, hf]; rfl, ?_⟩
    have hib := hp.inv b (List.mem_cons_self ..)
    have hge : k ≤ bmax b := fromB_head (l := l ++ hi s k) (by rw [fromB_split, hf]; rfl)
    rw [flat_cons] at hm'
    rcases List.mem_append.mp hm' with hm' | hm'
    · exact ⟨x, hm'⟩
    · obtain ⟨f, hf1, hf2⟩ := bmax_last hib (hp.ne b (List.mem_cons_self ..))
      have hs := hp.sorted
      rw [flat_cons, sorted_append] at hs
      have hle := hs.2.2 f hf1 _ hm'
      have : f.1 = k := le_antisymm hle (hf2 ▸ hge)
      exact ⟨f.2, by rw [← this]; exact hf1⟩

theorem containsIndex_iff {s : Seg K} (h : Pg s.blocks) (k : K) :
    containsIndex s k = true ↔ ∃ x, (k, x) ∈ flat s.blocks := by
  unfold containsIndex
  constructor
  · intro hc
    cases hf : fromB s k with
    | nil => rw [hf] at hc; cases hc
    | cons b l =>
      rw [hf] at hc
      have hb : b ∈ s.blocks := by rw [blocks_split s k, hf]; simp
      obtain ⟨y, hy⟩ := (C13_questions (h.inv b hb) k []).2.1.mp hc
      exact ⟨y, mem_flat.mpr ⟨b, hb, hy⟩⟩
  · rintro ⟨x, hx⟩
    obtain ⟨b, l, hf, y, hy⟩ := head_has h hx
    have hb : b ∈ s.blocks := by rw [blocks_split s k, hf]; simp
    rw [hf]
    exact (C13_questions (h.inv b hb) k []).2.1.mpr ⟨y, hy⟩

/-- When the range is empty, the page after it does not hold the key. -/
theorem looked_cases {s : Seg K} (h : Pg s.blocks) (k : K) :
    looked s k = mid s k ∨ (mid s k = [] ∧ ∃ b, looked s k = [b] ∧ b ∈ hi s k ∧ Inv b ∧ ∀ e ∈ iterate b, e.1 ≠ k) := by
  unfold looked
  cases hm : mid s k with
  | nil =>
    cases hf : fromB s k with
    | nil => exact Or.inl rfl
    | cons b l =>
      right
      have hh : hi s k = b :: l := by
        have := fromB_split s k
        rw [hm, hf, List.nil_append] at this
        exact this.symm
      refine ⟨rfl, b, by simp, by rw [hh]; exact List.mem_cons_self .., (pg_mid h k).2.2.inv b (by rw [hh]; exact List.mem_cons_self ..), ?_⟩
      intro e he
      exact ne_of_gt (hi_gt h (mem_flat.mpr ⟨b, by rw [hh]; exact List.mem_cons_self .., he⟩))
  | cons b l =>
    left
    have : fromB s k = b :: (l ++ hi s k) := by rw [fromB_split, hm]; rfl
    rw [this]
    simp

theorem contains_iff' {s : Seg K} (h : Pg s.blocks) (k : K) (x : Bytes) :
    contains s k x = true ↔ (k, x) ∈ flat s.blocks := by
  rw [mem_key h]
  unfold contains
  rcases looked_cases h k with hl | ⟨hm, b, hl, _, hib, hb⟩
  · rw [hl, List.any_eq_true, mem_flat]
    constructor
    · rintro ⟨b, hb, hc⟩
      exact ⟨b, hb, (C13_questions ((pg_mid h k).1.inv b hb) k x).1.mp hc⟩
    · rintro ⟨b, hb, hc⟩
      exact ⟨b, hb, (C13_questions ((pg_mid h k).1.inv b hb) k x).1.mpr hc⟩
  · rw [hl, hm]
    simp only [List.any_cons, List.any_nil, Bool.or_false, flat_nil, List.not_mem_nil, iff_false]
    rw [(block_absent hib hb).2.1 x]
    simp

theorem itemCount_eq {s : Seg K} (h : Pg s.blocks) (k : K) :
    itemCount s k = ((flat s.blocks).filter (·.1 = k)).length := by
  rw [filter_key h]
  unfold itemCount
  rcases looked_cases h k with hl | ⟨hm, b, hl, _, hib, hb⟩
  · rw [hl]
    have : ∀ bs : List (Block K), (∀ b ∈ bs, Inv b) →
        (bs.map fun b => Block.itemCount b k).sum = ((flat bs).filter (fun e => decide (e.1 = k))).length := by
      intro bs
      induction bs with
      | nil => intro _; rfl
      | cons b bs ih =>
        intro hi
        rw [List.map_cons, List.sum_cons, ih (fun c hc => hi c (List.mem_cons_of_mem _ hc)), flat_cons, List.filter_append,
          List.length_append, (C13_questions (hi b (List.mem_cons_self ..)) k []).2.2.2.1]
    exact this _ fun b hb => (pg_mid h k).1.inv b hb
  · rw [hl, hm]
    simp [(block_absent hib hb).1]

theorem getItems_perm {s : Seg K} (h : Pg s.blocks) (k : K) :
    (getItems s k).Perm (((flat s.blocks).filter (·.1 = k)).map Prod.snd) := by
  rw [filter_key h]
  unfold getItems
  rcases looked_cases h k with hl | ⟨hm, b, hl, _, hib, hb⟩
  · rw [hl]
    have : ∀ bs : List (Block K), (∀ b ∈ bs, Inv b) →
        (bs.flatMap fun b => Block.getItems b k).Perm (((flat bs).filter (fun e => decide (e.1 = k))).map Prod.snd) := by
      intro bs
      induction bs with
      | nil => intro _; exact List.Perm.refl _
      | cons b bs ih =>
        intro hi
        rw [List.flatMap_cons, flat_cons, List.filter_append, List.map_append]
        exact (C13_questions (hi b (List.mem_cons_self ..)) k []).2.2.1.append
          (ih (fun c hc => hi c (List.mem_cons_of_mem _ hc)))
    exact this _ fun b hb => (pg_mid h k).1.inv b hb
  · rw [hl, hm]
    simp [(block_absent hib hb).2.2.2.1]

theorem rev_index {α : Type} (l : List α) : (List.range l.length).map (fun i => l[l.length - 1 - i]?) = (l.map some).reverse := by
  apply List.ext_getElem?
  intro i
  by_cases hi : i < l.length
  · rw [List.getElem?_map, List.getElem?_range hi, List.getElem?_reverse (by simpa using hi), List.getElem?_map, List.length_map]
    have : l.length - 1 - i < l.length := by omega
    simp [this]
  · rw [List.getElem?_eq_none (by simp; omega), List.getElem?_eq_none (by simp; omega)]

theorem getItemLoop_perm {k : K} : ∀ (bs : List (Block K)) (sk : Nat), (∀ b ∈ bs, Inv b) →
    ((List.range (bs.map fun b => Block.itemCount b k).sum).map fun i => getItemLoop k (sk + i) sk bs).Perm
      ((bs.flatMap fun b => Block.getItems b k).map some) := by
  intro bs
  induction bs with
  | nil => intro sk _; exact List.Perm.refl _
  | cons b bs ih =>
    intro sk hi
    have hib := hi b (List.mem_cons_self ..)
    have hlen : Block.itemCount b k = (Block.getItems b k).length := by
      rw [(C13_questions hib k []).2.2.2.1, ((C13_questions hib k []).2.2.1).length_eq, List.length_map]
    rw [List.map_cons, List.sum_cons, List.range_add, List.map_append, List.flatMap_cons, List.map_append, List.map_map]
    refine List.Perm.append ?_ ?_
    · have : (List.range (Block.itemCount b k)).map (fun i => getItemLoop k (sk + i) sk (b :: bs)) =
          ((Block.getItems b k).map some).reverse := by
        rw [← rev_index, ← hlen]
        apply List.map_congr_left
        intro i hi'
        have hlt := List.mem_range.mp hi'
        show (if sk + i < sk + Block.itemCount b k then Block.getItem b k (sk + Block.itemCount b k - (sk + i) - 1)
          else _) = _
        rw [if_pos (by omega), (C13_questions hib k []).2.2.2.2.1]
        congr 1
        omega
      rw [this]
      exact List.reverse_perm _
    · have hih := ih (sk + Block.itemCount b k) (fun c hc => hi c (List.mem_cons_of_mem _ hc))
      have : ((fun i => getItemLoop k (sk + i) sk (b :: bs)) ∘ fun x => Block.itemCount b k + x) =
          fun i => getItemLoop k (sk + Block.itemCount b k + i) (sk + Block.itemCount b k) bs := by
        funext i
        show (if sk + (Block.itemCount b k + i) < sk + Block.itemCount b k then _ else
          getItemLoop k (sk + (Block.itemCount b k + i)) (sk + Block.itemCount b k) bs) = _
        rw [if_neg (by omega), Nat.add_assoc]
      rw [this]
      exact hih

/-- Reading the items of a key by position gives them all, each once. -/
theorem getItem_all {s : Seg K} (h : Pg s.blocks) (k : K) :
    ((List.range (itemCount s k)).map fun i => getItem s k i).Perm ((((flat s.blocks).filter (·.1 = k)).map Prod.snd).map some) := by
  have hmain := getItems_perm h k
  refine List.Perm.trans ?_ (hmain.map some)
  unfold itemCount getItems getItem
  cases hm : mid s k with
  | nil =>
    cases hf : fromB s k with
    | nil => simp [looked, hf]
    | cons b l =>
      have hl : looked s k = [b] := by unfold looked; rw [hf, hm]; rfl
      have hb : b ∈ s.blocks := by rw [blocks_split s k, hf]; simp
      have hib := h.inv b hb
      rw [hl]
      simp only [List.isEmpty_nil, if_true, List.map_cons, List.map_nil, List.sum_cons, List.sum_nil, Nat.add_zero,
        List.flatMap_cons, List.flatMap_nil, List.append_nil]
      have hlen : Block.itemCount b k = (Block.getItems b k).length := by
        rw [(C13_questions hib k []).2.2.2.1, ((C13_questions hib k []).2.2.1).length_eq, List.length_map]
      have : (List.range (Block.itemCount b k)).map (fun i => Block.getItem b k i) = (Block.getItems b k).map some := by
        apply List.ext_getElem?
        intro i
        by_cases hi : i < (Block.getItems b k).length
        · rw [List.getElem?_map, List.getElem?_range (by omega), List.getElem?_map]
          simp [(C13_questions hib k []).2.2.2.2.1, hi]
        · rw [List.getElem?_eq_none (by simp; omega), List.getElem?_eq_none (by simp; omega)]
      rw [this]
  | cons b l =>
    have hf : fromB s k = b :: (l ++ hi s k) := by rw [fromB_split, hm]; rfl
    have hl : looked s k = b :: l := by unfold looked; rw [hf, hm]; simp
    rw [hl, hf]
    simp only [List.isEmpty_cons, Bool.false_eq_true, if_false]
    have := getItemLoop_perm (k := k) (b :: l) 0 (fun c hc => (pg_mid h k).1.inv c (by rw [hm]; exact hc))
    simp only [Nat.zero_add] at this
    exact this

end Verif.Seg
