import Verif.SegTree.Steps2
import Mathlib.Data.List.Sort
/-!
Splitting, balancing and merging of segment trees when every key has one item.
-/
namespace Verif.Seg
open Verif.Block
set_option linter.unusedSectionVars false
variable {K : Type} [LinearOrder K] [BoundedOrder K]

/-- Distinct keys, none of them the null key. -/
structure Uk (l : List (K × Bytes)) : Prop where
  nodup : (l.map Prod.fst).Nodup
  top : ∀ e ∈ l, e.1 ≠ ⊤

theorem Uk.append {a c : List (K × Bytes)} (h : Uk (a ++ c)) : Uk a ∧ Uk c := by
  have := h.nodup
  rw [List.map_append, List.nodup_append] at this
  exact ⟨⟨this.1, fun e he => h.top e (List.mem_append_left _ he)⟩, ⟨this.2.1, fun e he => h.top e (List.mem_append_right _ he)⟩⟩

theorem Uk.nodup' {l : List (K × Bytes)} (h : Uk l) : l.Nodup := h.nodup.of_map

/-- A segment tree in which every key has one item. -/
structure UInv (s : Seg K) : Prop where
  pg : Pg s.blocks
  small : ∀ e ∈ flat s.blocks, e.2.length + 32 ≤ QUARTER
  uk : Uk (flat s.blocks)
  cnt : s.count = (flat s.blocks).length
  unq : s.uniq = (flat s.blocks).length

theorem UInv.sinv {s : Seg K} (h : UInv s) : SInv s :=
  ⟨h.pg, h.small, h.uk.nodup', h.cnt, by rw [List.toFinset_card_of_nodup h.uk.nodup, List.length_map, h.unq]⟩

theorem SInv.uinv {s : Seg K} (h : SInv s) (hu : Uk (flat s.blocks)) : UInv s :=
  ⟨h.pg, h.small, hu, h.cnt, by rw [h.unq, List.toFinset_card_of_nodup hu.nodup, List.length_map]⟩

theorem strict_of {l : List (K × Bytes)} (hs : (l.map Prod.fst).Pairwise (· ≤ ·)) (hu : (l.map Prod.fst).Nodup) :
    l.Pairwise (fun a c => a.1 < c.1) := by
  have h1 : (l.map Prod.fst).Pairwise (· < ·) := by
    have := hs.and hu
    exact this.imp fun h => lt_of_le_of_ne h.1 h.2
  exact List.pairwise_map.mp h1

theorem eq_of_perm_strict {a c : List (K × Bytes)} (hp : a.Perm c) (ha : a.Pairwise (fun a c => a.1 < c.1))
    (hc : c.Pairwise (fun a c => a.1 < c.1)) : a = c :=
  List.Perm.eq_of_pairwise (fun _ _ _ _ h1 h2 => absurd (lt_trans h1 h2) (lt_irrefl _)) ha hc hp

theorem uniq_eq {b : Block K} (h : Inv b) (hu : ((iterate b).map Prod.fst).Nodup) : b.uniq = (iterate b).length := by
  rw [h.unq]
  unfold distinctKeys
  rw [← entries_keys]
  have hp : ((entries b).map Prod.fst).Perm ((iterate b).map Prod.fst) := (iterate_perm b).symm.map _
  rw [List.toFinset_card_of_nodup (hp.nodup_iff.mpr hu), hp.length_eq, List.length_map]

/-- Cutting one page. -/
theorem cut_page {b : Block K} (h : Pg [b]) (hu : ((iterate b).map Prod.fst).Nodup) {n : Nat} (h0 : 0 < n)
    (hn : n < (iterate b).length) :
    ∃ b1 b2, splitUniques b n = some (b1, b2) ∧ Pg [b1] ∧ Pg [b2] ∧ iterate b1 ++ iterate b2 = iterate b ∧
      b1.count = (iterate b).length - n ∧ b2.count = n := by
  have hib := h.inv b (List.mem_singleton.mpr rfl)
  have hsz := h.sz b (List.mem_singleton.mpr rfl)
  have hue := uniq_eq hib hu
  obtain ⟨b1, b2, e1, i1, i2, hp, hlt, u1, u2, f1, f2⟩ := splitUniques_ok hib (n := n)
    (by unfold PAGE at hsz; show 16 ≤ b.full; omega) (by omega)
  have hp' : (iterate b1 ++ iterate b2).Perm (iterate b) :=
    ((iterate_perm b1).append (iterate_perm b2)).trans (List.perm_append_comm.trans (hp.trans (iterate_perm b).symm))
  have hu' : ((iterate b1 ++ iterate b2).map Prod.fst).Nodup := (hp'.map _).nodup_iff.mpr hu
  have hu1 := hu'
  rw [List.map_append, List.nodup_append] at hu1
  have hl1 := uniq_eq i1 hu1.1
  have hl2 := uniq_eq i2 hu1.2.1
  have hne : ∀ c : Block K, (iterate c).length ≠ 0 → entries c ≠ [] := by
    intro c hc hcc
    rw [iterate_eq, hcc] at hc
    exact hc rfl
  have hs : ((iterate b1 ++ iterate b2).map Prod.fst).Pairwise (· ≤ ·) := by
    rw [sorted_append]
    exact ⟨iterate_sorted i1, iterate_sorted i2, fun e he f hf => le_of_lt (hlt e (mem_iterate.mp he) f (mem_iterate.mp hf))⟩
  refine ⟨b1, b2, e1, Pg.single i1 (hne _ (by omega)) (by rw [f1]; exact hsz), Pg.single i2 (hne _ (by omega)) (by rw [f2]; exact hsz),
    eq_of_perm_strict hp' (strict_of hs hu') (strict_of (iterate_sorted hib) hu), ?_, ?_⟩
  · rw [block_count i1]; omega
  · rw [block_count i2]; omega

theorem takeTop_ok : ∀ (rev : List (Block K)) (prev : K) (n : Nat), Pg rev.reverse → ((flat rev.reverse).map Prod.fst).Nodup →
    (∀ e ∈ flat rev.reverse, e.1 ≠ prev) → n ≤ (flat rev.reverse).length →
    ∃ stay moved, takeTop prev n rev = some (stay, moved, n, n) ∧ Pg stay.reverse ∧ Pg moved ∧
      flat stay.reverse ++ flat moved = flat rev.reverse ∧ (flat moved).length = n := by
  intro rev
  induction rev with
  | nil =>
    intro prev n _ _ _ hn
    have : n = 0 := by simpa using hn
    subst this
    exact ⟨[], [], rfl, Pg.nil, Pg.nil, rfl, rfl⟩
  | cons b rev ih =>
    intro prev n h hu hprev hn
    rw [List.reverse_cons] at h hu hprev hn
    obtain ⟨hr, hb, hrb⟩ := Pg.append.mp h
    have hib := hb.inv b (List.mem_singleton.mpr rfl)
    rw [flat_append, flat_single] at hu hprev hn
    have hu2 := hu
    rw [List.map_append, List.nodup_append] at hu2
    have hue := uniq_eq hib hu2.2.1
    have hcnt := block_count hib
    obtain ⟨emax, hemax, hmaxe⟩ := bmax_last hib (hb.ne b (List.mem_singleton.mpr rfl))
    obtain ⟨emin, hemin, hmine⟩ := bmin_head hib (hb.ne b (List.mem_singleton.mpr rfl))
    have hp1 : prev ≠ bmax b := by
      rw [← hmaxe]
      exact (hprev emax (List.mem_append_right _ hemax)).symm
    have hp2 : prev ≠ bmin b := by
      rw [← hmine]
      exact (hprev emin (List.mem_append_right _ hemin)).symm
    have hun : takeTop prev n (b :: rev) = (if b.uniq ≤ n then
        (takeTop (bmin b) (n - b.uniq) rev).map fun r => (r.1, r.2.1 ++ [b], r.2.2.1 + b.count, r.2.2.2 + b.uniq)
      else if n = 0 ∨ n = b.uniq then some (b :: rev, [], 0, 0)
      else (splitUniques b n).map fun r => (r.1 :: rev, [r.2], b.count - r.1.count, n)) := by
      show (if b.uniq - (if prev = bmax b then 1 else 0) ≤ n then _ else _) = _
      rw [if_neg hp1, if_neg hp2]
      rfl
    rw [hun]
    rw [List.length_append] at hn
    have hemem : ∀ e ∈ flat rev.reverse, e.1 ≠ bmin b := by
      intro e he hc
      exact hu2.2.2 e.1 (List.mem_map.mpr ⟨e, he, rfl⟩) emin.1 (List.mem_map.mpr ⟨emin, hemin, rfl⟩) (by rw [hc, hmine])
    by_cases hc : b.uniq ≤ n
    · rw [if_pos hc]
      obtain ⟨stay, moved, e1, e2, e3, e4, e5⟩ := ih (bmin b) (n - b.uniq) hr hu2.1 hemem (by omega)
      rw [e1]
      have hflat : flat (moved ++ [b]) = flat moved ++ iterate b := by rw [flat_append, flat_single]
      refine ⟨stay, moved ++ [b], ?_, e2, ?_, ?_, ?_⟩
      · simp only [Option.map_some]
        congr 3
        refine Prod.ext ?_ ?_
        · show n - b.uniq + b.count = n
          omega
        · show n - b.uniq + b.uniq = n
          omega
      · refine Pg.append.mpr ⟨e3, hb, ?_⟩
        intro e he f hf
        exact hrb e (by rw [← e4]; exact List.mem_append_right _ he) f hf
      · rw [hflat, ← List.append_assoc, e4, List.reverse_cons, flat_append, flat_single]
      · rw [hflat, List.length_append, e5]; omega
    · rw [if_neg hc]
      by_cases h0 : n = 0
      · subst h0
        rw [if_pos (Or.inl rfl)]
        refine ⟨b :: rev, [], rfl, by rw [List.reverse_cons]; exact h, Pg.nil, by simp, rfl⟩
      · rw [if_neg (by omega)]
        obtain ⟨b1, b2, e1, p1, p2, e2, c1, c2⟩ := cut_page hb hu2.2.1 (n := n) (by omega) (by omega)
        rw [e1]
        refine ⟨b1 :: rev, [b2], ?_, ?_, p2, ?_, ?_⟩
        · simp only [Option.map_some]
          congr 3
          refine Prod.ext ?_ rfl
          show b.count - b1.count = n
          omega
        · rw [List.reverse_cons]
          refine Pg.append.mpr ⟨hr, p1, ?_⟩
          intro e he f hf
          rw [flat_single] at hf
          exact hrb e he f (by rw [flat_single, ← e2]; exact List.mem_append_left _ hf)
        · rw [List.reverse_cons, flat_append, flat_single, flat_single, List.append_assoc, e2, List.reverse_cons, flat_append,
            flat_single]
        · rw [flat_single, ← block_count (p2.inv b2 (List.mem_singleton.mpr rfl)), c2]

theorem takeBottom_ok : ∀ (bs : List (Block K)) (prev : K) (n : Nat), Pg bs → ((flat bs).map Prod.fst).Nodup →
    (∀ e ∈ flat bs, e.1 ≠ prev) → n ≤ (flat bs).length →
    ∃ moved stay, takeBottom prev n bs = some (moved, stay, n, n) ∧ Pg moved ∧ Pg stay ∧
      flat moved ++ flat stay = flat bs ∧ (flat moved).length = n := by
  intro bs
  induction bs with
  | nil =>
    intro prev n _ _ _ hn
    have : n = 0 := by simpa using hn
    subst this
    exact ⟨[], [], rfl, Pg.nil, Pg.nil, rfl, rfl⟩
  | cons b bs ih =>
    intro prev n h hu hprev hn
    have h' : Pg ([b] ++ bs) := h
    obtain ⟨hb, hr, hbr⟩ := Pg.append.mp h'
    have hib := hb.inv b (List.mem_singleton.mpr rfl)
    rw [flat_cons] at hu hprev hn
    have hu2 := hu
    rw [List.map_append, List.nodup_append] at hu2
    have hue := uniq_eq hib hu2.1
    have hcnt := block_count hib
    obtain ⟨emax, hemax, hmaxe⟩ := bmax_last hib (hb.ne b (List.mem_singleton.mpr rfl))
    obtain ⟨emin, hemin, hmine⟩ := bmin_head hib (hb.ne b (List.mem_singleton.mpr rfl))
    have hp2 : prev ≠ bmin b := by
      rw [← hmine]
      exact (hprev emin (List.mem_append_left _ hemin)).symm
    have hun : takeBottom prev n (b :: bs) = (if b.uniq ≤ n then
        (takeBottom (bmax b) (n - b.uniq) bs).map fun r => (b :: r.1, r.2.1, r.2.2.1 + b.count, r.2.2.2 + b.uniq)
      else if b.uniq - n = 0 ∨ b.uniq - n = b.uniq then some ([], b :: bs, 0, 0)
      else (splitUniques b (b.uniq - n)).map fun r => ([r.1], r.2 :: bs, b.count - r.2.count, n)) := by
      show (if b.uniq - (if prev = bmin b then 1 else 0) ≤ n then _ else _) = _
      rw [if_neg hp2]
      rfl
    rw [hun]
    rw [List.length_append] at hn
    have hemem : ∀ e ∈ flat bs, e.1 ≠ bmax b := by
      intro e he hc
      exact hu2.2.2 emax.1 (List.mem_map.mpr ⟨emax, hemax, rfl⟩) e.1 (List.mem_map.mpr ⟨e, he, rfl⟩) (by rw [hc, hmaxe])
    have hblen : 0 < (iterate b).length := List.length_pos_of_mem hemax
    by_cases hc : b.uniq ≤ n
    · rw [if_pos hc]
      obtain ⟨moved, stay, e1, e2, e3, e4, e5⟩ := ih (bmax b) (n - b.uniq) hr hu2.2.1 hemem (by omega)
      rw [e1]
      refine ⟨b :: moved, stay, ?_, ?_, e3, ?_, ?_⟩
      · simp only [Option.map_some]
        congr 3
        refine Prod.ext ?_ ?_
        · show n - b.uniq + b.count = n
          omega
        · show n - b.uniq + b.uniq = n
          omega
      · have : Pg ([b] ++ moved) := Pg.append.mpr ⟨hb, e2, by
          intro e he f hf
          exact hbr e he f (by rw [← e4]; exact List.mem_append_left _ hf)⟩
        exact this
      · rw [flat_cons, List.append_assoc, e4, flat_cons]
      · rw [flat_cons, List.length_append, e5]; omega
    · rw [if_neg hc]
      by_cases h0 : n = 0
      · subst h0
        rw [if_pos (Or.inr (Nat.sub_zero _))]
        exact ⟨[], b :: bs, rfl, Pg.nil, h, rfl, rfl⟩
      · rw [if_neg (by omega)]
        obtain ⟨b1, b2, e1, p1, p2, e2, c1, c2⟩ := cut_page hb hu2.1 (n := b.uniq - n) (by omega) (by omega)
        rw [e1]
        refine ⟨[b1], b2 :: bs, ?_, p1, ?_, ?_, ?_⟩
        · simp only [Option.map_some]
          congr 3
          refine Prod.ext ?_ rfl
          show b.count - b2.count = n
          omega
        · have : Pg ([b2] ++ bs) := Pg.append.mpr ⟨p2, hr, by
            intro e he f hf
            rw [flat_single] at he
            exact hbr e (by rw [flat_single, ← e2]; exact List.mem_append_right _ he) f hf⟩
          exact this
        · rw [flat_single, flat_cons, flat_cons, ← List.append_assoc, e2]
        · rw [flat_single, ← block_count (p1.inv b1 (List.mem_singleton.mpr rfl)), c1]; omega

theorem UInv.mk' {bs : List (Block K)} {c u : Nat} (hp : Pg bs) (hs : ∀ e ∈ flat bs, e.2.length + 32 ≤ QUARTER)
    (hu : Uk (flat bs)) (hc : c = (flat bs).length) (h2 : u = (flat bs).length) : UInv (⟨bs, c, u⟩ : Seg K) := ⟨hp, hs, hu, hc, h2⟩

/-- `split` cuts the tree in two halves. -/
theorem split_ok {s : Seg K} (h : UInv s) :
    ∃ a c, split s = some (a, c) ∧ UInv a ∧ UInv c ∧ flat a.blocks ++ flat c.blocks = flat s.blocks ∧
      c.uniq = s.uniq / 2 ∧ a.uniq = s.uniq - s.uniq / 2 := by
  obtain ⟨stay, moved, e1, e2, e3, e4, e5⟩ := takeTop_ok s.blocks.reverse ⊤ (s.uniq / 2) (by rw [List.reverse_reverse]; exact h.pg)
    (by rw [List.reverse_reverse]; exact h.uk.nodup) (by rw [List.reverse_reverse]; exact h.uk.top)
    (by rw [List.reverse_reverse, h.unq]; omega)
  rw [List.reverse_reverse] at e4
  unfold split
  rw [e1]
  have hu := h.uk
  rw [← e4] at hu
  obtain ⟨u1, u2⟩ := hu.append
  have hlen := congrArg List.length e4
  rw [List.length_append] at hlen
  have hs1 : ∀ e ∈ flat stay.reverse, e.2.length + 32 ≤ QUARTER := fun e he => h.small e (by rw [← e4]; exact List.mem_append_left _ he)
  have hs2 : ∀ e ∈ flat moved, e.2.length + 32 ≤ QUARTER := fun e he => h.small e (by rw [← e4]; exact List.mem_append_right _ he)
  have hc := h.cnt
  have hq := h.unq
  refine ⟨_, _, rfl, UInv.mk' e2 hs1 u1 ?_ ?_, UInv.mk' e3 hs2 u2 ?_ ?_, e4, rfl, rfl⟩
  all_goals simp only
  all_goals omega

/-- `balance_with` a tree below. -/
theorem balance_left {s o : Seg K} (h : UInv s) (ho : UInv o) (hu : Uk (flat o.blocks ++ flat s.blocks))
    (hlt : ∀ e ∈ flat o.blocks, ∀ f ∈ flat s.blocks, e.1 < f.1) (hns : s.blocks ≠ []) (hno : o.blocks ≠ []) (hle : s.uniq ≤ o.uniq) :
    ∃ s' o', balanceWith s o = some (s', o') ∧ UInv s' ∧ UInv o' ∧ flat o'.blocks ++ flat s'.blocks = flat o.blocks ++ flat s.blocks ∧
      s'.uniq = (s.uniq + o.uniq) / 2 ∧ o'.uniq = s.uniq + o.uniq - (s.uniq + o.uniq) / 2 := by
  have hdir : smax o < smin s := by
    unfold smax smin
    obtain ⟨b, hb⟩ : ∃ b, s.blocks.head? = some b := by
      cases hq : s.blocks with
      | nil => exact absurd hq hns
      | cons b l => exact ⟨b, rfl⟩
    obtain ⟨q, hq⟩ : ∃ b, o.blocks.getLast? = some b := by
      rcases getLast_cases o.blocks with hc | ⟨a, ha, _⟩
      · exact absurd hc hno
      · exact ⟨a, ha⟩
    rw [hb, hq]
    have hbm : b ∈ s.blocks := List.mem_of_mem_head? (by rw [hb]; rfl)
    have hqm : q ∈ o.blocks := List.mem_of_getLast? hq
    obtain ⟨e, he, hek⟩ := bmin_head (h.pg.inv b hbm) (h.pg.ne b hbm)
    obtain ⟨f, hf, hfk⟩ := bmax_last (ho.pg.inv q hqm) (ho.pg.ne q hqm)
    show bmax q < bmin b
    rw [← hek, ← hfk]
    exact hlt f (mem_flat.mpr ⟨q, hqm, hf⟩) e (mem_flat.mpr ⟨b, hbm, he⟩)
  have hc1 := h.cnt
  have hq1 := h.unq
  have hc2 := ho.cnt
  have hq2 := ho.unq
  obtain ⟨stay, moved, e1, e2, e3, e4, e5⟩ := takeTop_ok o.blocks.reverse ⊤ ((s.uniq + o.uniq) / 2 - s.uniq)
    (by rw [List.reverse_reverse]; exact ho.pg)
    (by rw [List.reverse_reverse]; exact ho.uk.nodup) (by rw [List.reverse_reverse]; exact ho.uk.top)
    (by rw [List.reverse_reverse]; omega)
  rw [List.reverse_reverse] at e4
  unfold balanceWith
  simp only
  rw [if_pos hdir, e1]
  have hlen := congrArg List.length e4
  rw [List.length_append] at hlen
  have hu1 : Uk (flat stay.reverse ++ (flat moved ++ flat s.blocks)) := by rw [← List.append_assoc, e4]; exact hu
  obtain ⟨u1, u2⟩ := hu1.append
  have hfl : flat (moved ++ s.blocks) = flat moved ++ flat s.blocks := flat_append _ _
  have hm : ∀ e ∈ flat moved, e ∈ flat o.blocks := fun e he => by rw [← e4]; exact List.mem_append_right _ he
  refine ⟨_, _, rfl, UInv.mk' ?_ ?_ (by rw [hfl]; exact u2) ?_ ?_, UInv.mk' e2 ?_ u1 ?_ ?_, ?_, ?_, ?_⟩
  · exact Pg.append.mpr ⟨e3, h.pg, fun e he f hf => le_of_lt (hlt e (hm e he) f hf)⟩
  · intro e he
    rw [hfl] at he
    rcases List.mem_append.mp he with he | he
    · exact ho.small e (hm e he)
    · exact h.small e he
  · rw [hfl, List.length_append]; simp only; omega
  · rw [hfl, List.length_append]; simp only; omega
  · intro e he
    exact ho.small e (by rw [← e4]; exact List.mem_append_left _ he)
  · simp only; omega
  · simp only; omega
  · show flat stay.reverse ++ flat (moved ++ s.blocks) = _
    rw [hfl, ← List.append_assoc, e4]
  · simp only; omega
  · simp only; omega

/-- `balance_with` a tree above. -/
theorem balance_right {s o : Seg K} (h : UInv s) (ho : UInv o) (hu : Uk (flat s.blocks ++ flat o.blocks))
    (hlt : ∀ e ∈ flat s.blocks, ∀ f ∈ flat o.blocks, e.1 < f.1) (hns : s.blocks ≠ []) (hno : o.blocks ≠ []) (hle : s.uniq ≤ o.uniq) :
    ∃ s' o', balanceWith s o = some (s', o') ∧ UInv s' ∧ UInv o' ∧ flat s'.blocks ++ flat o'.blocks = flat s.blocks ++ flat o.blocks ∧
      s'.uniq = (s.uniq + o.uniq) / 2 ∧ o'.uniq = s.uniq + o.uniq - (s.uniq + o.uniq) / 2 := by
  have hdir : ¬ smax o < smin s := by
    unfold smax smin
    obtain ⟨b, hb⟩ : ∃ b, s.blocks.head? = some b := by
      cases hq : s.blocks with
      | nil => exact absurd hq hns
      | cons b l => exact ⟨b, rfl⟩
    obtain ⟨q, hq⟩ : ∃ b, o.blocks.getLast? = some b := by
      rcases getLast_cases o.blocks with hc | ⟨a, ha, _⟩
      · exact absurd hc hno
      · exact ⟨a, ha⟩
    rw [hb, hq]
    have hbm : b ∈ s.blocks := List.mem_of_mem_head? (by rw [hb]; rfl)
    have hqm : q ∈ o.blocks := List.mem_of_getLast? hq
    obtain ⟨e, he, hek⟩ := bmin_head (h.pg.inv b hbm) (h.pg.ne b hbm)
    obtain ⟨f, hf, hfk⟩ := bmax_last (ho.pg.inv q hqm) (ho.pg.ne q hqm)
    show ¬ bmax q < bmin b
    rw [← hek, ← hfk]
    exact not_lt.mpr (le_of_lt (hlt e (mem_flat.mpr ⟨b, hbm, he⟩) f (mem_flat.mpr ⟨q, hqm, hf⟩)))
  have hc1 := h.cnt
  have hq1 := h.unq
  have hc2 := ho.cnt
  have hq2 := ho.unq
  obtain ⟨moved, stay, e1, e2, e3, e4, e5⟩ := takeBottom_ok o.blocks ⊤ ((s.uniq + o.uniq) / 2 - s.uniq)
    ho.pg ho.uk.nodup ho.uk.top (by omega)
  unfold balanceWith
  simp only
  rw [if_neg hdir, e1]
  have hlen := congrArg List.length e4
  rw [List.length_append] at hlen
  have hu1 : Uk ((flat s.blocks ++ flat moved) ++ flat stay) := by rw [List.append_assoc, e4]; exact hu
  obtain ⟨u1, u2⟩ := hu1.append
  have hfl : flat (s.blocks ++ moved) = flat s.blocks ++ flat moved := flat_append _ _
  have hm : ∀ e ∈ flat moved, e ∈ flat o.blocks := fun e he => by rw [← e4]; exact List.mem_append_left _ he
  refine ⟨_, _, rfl, UInv.mk' ?_ ?_ (by rw [hfl]; exact u1) ?_ ?_, UInv.mk' e3 ?_ u2 ?_ ?_, ?_, ?_, ?_⟩
  · exact Pg.append.mpr ⟨h.pg, e2, fun e he f hf => le_of_lt (hlt e he f (hm f hf))⟩
  · intro e he
    rw [hfl] at he
    rcases List.mem_append.mp he with he | he
    · exact h.small e he
    · exact ho.small e (hm e he)
  · rw [hfl, List.length_append]; simp only; omega
  · rw [hfl, List.length_append]; simp only; omega
  · intro e he
    exact ho.small e (by rw [← e4]; exact List.mem_append_right _ he)
  · simp only; omega
  · simp only; omega
  · show flat (s.blocks ++ moved) ++ flat stay = _
    rw [hfl, List.append_assoc, e4]
  · simp only; omega
  · simp only; omega

/-- `merge` with a tree above. -/
theorem merge_right {s o : Seg K} (h : UInv s) (ho : UInv o) (hu : Uk (flat s.blocks ++ flat o.blocks))
    (hlt : ∀ e ∈ flat s.blocks, ∀ f ∈ flat o.blocks, e.1 < f.1) (hns : s.blocks ≠ []) (hno : o.blocks ≠ []) :
    UInv (merge' s o) ∧ flat (merge' s o).blocks = flat s.blocks ++ flat o.blocks ∧ (merge' s o).uniq = s.uniq + o.uniq := by
  have hdir : ¬ smax o < smin s := by
    unfold smax smin
    obtain ⟨b, hb⟩ : ∃ b, s.blocks.head? = some b := by
      cases hq : s.blocks with
      | nil => exact absurd hq hns
      | cons b l => exact ⟨b, rfl⟩
    obtain ⟨q, hq⟩ : ∃ b, o.blocks.getLast? = some b := by
      rcases getLast_cases o.blocks with hc | ⟨a, ha, _⟩
      · exact absurd hc hno
      · exact ⟨a, ha⟩
    rw [hb, hq]
    have hbm : b ∈ s.blocks := List.mem_of_mem_head? (by rw [hb]; rfl)
    have hqm : q ∈ o.blocks := List.mem_of_getLast? hq
    obtain ⟨e, he, hek⟩ := bmin_head (h.pg.inv b hbm) (h.pg.ne b hbm)
    obtain ⟨f, hf, hfk⟩ := bmax_last (ho.pg.inv q hqm) (ho.pg.ne q hqm)
    show ¬ bmax q < bmin b
    rw [← hek, ← hfk]
    exact not_lt.mpr (le_of_lt (hlt e (mem_flat.mpr ⟨b, hbm, he⟩) f (mem_flat.mpr ⟨q, hqm, hf⟩)))
  have hc1 := h.cnt
  have hq1 := h.unq
  have hc2 := ho.cnt
  have hq2 := ho.unq
  unfold merge'
  rw [if_neg hdir]
  have hfl : flat (s.blocks ++ o.blocks) = flat s.blocks ++ flat o.blocks := flat_append _ _
  refine ⟨UInv.mk' ?_ ?_ (by rw [hfl]; exact hu) ?_ ?_, hfl, rfl⟩
  · exact Pg.append.mpr ⟨h.pg, ho.pg, fun e he f hf => le_of_lt (hlt e he f hf)⟩
  · intro e he
    rw [hfl] at he
    rcases List.mem_append.mp he with he | he
    · exact h.small e he
    · exact ho.small e he
  · rw [hfl, List.length_append]; omega
  · rw [hfl, List.length_append]; omega

/-- `merge` with a tree below. -/
theorem merge_left {s o : Seg K} (h : UInv s) (ho : UInv o) (hu : Uk (flat o.blocks ++ flat s.blocks))
    (hlt : ∀ e ∈ flat o.blocks, ∀ f ∈ flat s.blocks, e.1 < f.1) (hns : s.blocks ≠ []) (hno : o.blocks ≠ []) :
    UInv (merge' s o) ∧ flat (merge' s o).blocks = flat o.blocks ++ flat s.blocks ∧ (merge' s o).uniq = s.uniq + o.uniq := by
  have hdir : smax o < smin s := by
    unfold smax smin
    obtain ⟨b, hb⟩ : ∃ b, s.blocks.head? = some b := by
      cases hq : s.blocks with
      | nil => exact absurd hq hns
      | cons b l => exact ⟨b, rfl⟩
    obtain ⟨q, hq⟩ : ∃ b, o.blocks.getLast? = some b := by
      rcases getLast_cases o.blocks with hc | ⟨a, ha, _⟩
      · exact absurd hc hno
      · exact ⟨a, ha⟩
    rw [hb, hq]
    have hbm : b ∈ s.blocks := List.mem_of_mem_head? (by rw [hb]; rfl)
    have hqm : q ∈ o.blocks := List.mem_of_getLast? hq
    obtain ⟨e, he, hek⟩ := bmin_head (h.pg.inv b hbm) (h.pg.ne b hbm)
    obtain ⟨f, hf, hfk⟩ := bmax_last (ho.pg.inv q hqm) (ho.pg.ne q hqm)
    show bmax q < bmin b
    rw [← hek, ← hfk]
    exact hlt f (mem_flat.mpr ⟨q, hqm, hf⟩) e (mem_flat.mpr ⟨b, hbm, he⟩)
  have hc1 := h.cnt
  have hq1 := h.unq
  have hc2 := ho.cnt
  have hq2 := ho.unq
  unfold merge'
  rw [if_pos hdir]
  have hfl : flat (o.blocks ++ s.blocks) = flat o.blocks ++ flat s.blocks := flat_append _ _
  refine ⟨UInv.mk' ?_ ?_ (by rw [hfl]; exact hu) ?_ ?_, hfl, rfl⟩
  · exact Pg.append.mpr ⟨ho.pg, h.pg, fun e he f hf => le_of_lt (hlt e he f hf)⟩
  · intro e he
    rw [hfl] at he
    rcases List.mem_append.mp he with he | he
    · exact ho.small e he
    · exact h.small e he
  · rw [hfl, List.length_append]; omega
  · rw [hfl, List.length_append]; omega

end Verif.Seg
