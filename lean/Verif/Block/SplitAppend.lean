import Verif.Block.Steps
/-!
Helper lemmas: `split_append`.
-/
namespace Verif.Block
variable {K : Type} [LinearOrder K]
set_option linter.unusedSectionVars false

/-- The pages a call of `split_append` leaves, in the order in which they are linked. -/
def pages (r : Block K × Block K × Option (Block K)) : List (Block K) := r.1 :: r.2.1 :: r.2.2.toList

theorem iterate_eq (b : Block K) : iterate b = (entries b).reverse := by
  unfold iterate entries; rw [List.map_reverse]

theorem iterate_sorted {b : Block K} (h : Inv b) : ((iterate b).map Prod.fst).Pairwise (· ≤ ·) := by
  rw [iterate_eq, List.map_reverse, entries_keys, List.pairwise_reverse]
  exact sortedM_iff.mp h.sorted

theorem append_ok {b : Block K} (h : Inv b) {k : K} {x : Bytes} (hx : 0 < x.length)
    (hn : (k, x) ∉ entries b) (hroom : 16 + used (entries b) + x.length + 24 ≤ b.full) :
    ∃ b', append b k x = (b', true) ∧ Inv b' ∧ (entries b').Perm ((k, x) :: entries b) ∧ b'.full = b.full := by
  rcases append_cases h k x with ⟨_, hc⟩ | ⟨e, _, _⟩
  · rcases hc with hc | hc
    · exact absurd hc hn
    · omega
  · exact ⟨_, e, appended_inv h hx hn hroom, appended_perm h k x, rfl⟩

theorem align_ge (n : Nat) : n ≤ alignToBlock n := by
  unfold alignToBlock
  have h : ∀ B, 0 < B → n ≤ (n + (B - 1)) / B * B := by
    intro B hB
    have h1 := Nat.div_add_mod (n + (B - 1)) B
    have h2 := Nat.mod_lt (n + (B - 1)) hB
    have h3 := Nat.mul_comm B ((n + (B - 1)) / B)
    omega
  exact h 262144 (by decide)

theorem first_ok (k : K) {x : Bytes} (hx : 0 < x.length) {N : Nat} (hN : x.length + HSZ + MSZ ≤ N) :
    Inv (freshOf N k x) ∧ entries (freshOf N k x) = [(k, x)] := by
  unfold HSZ MSZ at hN
  have hi : Inv (empty N : Block K) := empty_inv (by unfold HSZ; omega)
  obtain ⟨b', e1, e2, e3, _⟩ := append_ok hi (k := k) hx (by intro hc; cases hc) (by
    show 16 + 0 + x.length + 24 ≤ N
    omega)
  unfold freshOf
  rw [e1]
  exact ⟨e2, List.perm_singleton.mp e3⟩

theorem append_full (b : Block K) (k : K) (x : Bytes) : (append b k x).1.full = b.full := by
  unfold append
  split
  · rfl
  · split <;> rfl

theorem freshOf_full (N : Nat) (k : K) (x : Bytes) : (freshOf N k x).full = N := append_full _ _ _

theorem fresh_full (k : K) (x : Bytes) : (fresh k x).full = alignToBlock (x.length + HSZ + MSZ) := freshOf_full _ _ _

theorem fresh_ok (k : K) {x : Bytes} (hx : 0 < x.length) : Inv (fresh k x) ∧ entries (fresh k x) = [(k, x)] :=
  first_ok k hx (align_ge (x.length + HSZ + MSZ))

def sumM (ms : List (Meta K)) : Nat := (ms.map fun m => m.size + 24).sum

theorem sumM_concat (ms : List (Meta K)) (m : Meta K) : sumM (ms ++ [m]) = sumM ms + (m.size + 24) := by
  unfold sumM
  rw [List.map_append, List.sum_append, List.map_singleton, List.sum_singleton]

theorem used_map (b : Block K) (ms : List (Meta K)) : used (ms.map fun m => (m.key, item b m)) = sumM ms := by
  unfold used sumM
  rw [List.map_map]
  congr 1
  refine List.map_congr_left ?_
  intro m _
  simp [item, slice_length]

theorem used_take (b : Block K) (n : Nat) : used ((entries b).take n) = sumM (b.metas.take n) := by
  unfold entries; rw [← List.map_take]; exact used_map b _

theorem used_drop (b : Block K) (n : Nat) : used ((entries b).drop n) = sumM (b.metas.drop n) := by
  unfold entries; rw [← List.map_drop]; exact used_map b _

theorem used_all (b : Block K) : used (entries b) = sumM b.metas := used_map b _

theorem halfPoint_ok (full : Nat) : ∀ (ms : List (Meta K)) (n0 acc0 : Nat), ∃ j ≤ ms.length,
    halfPoint full n0 acc0 ms = (n0 + j, acc0 + sumM (ms.take (j + 1))) ∧
    (j < ms.length → full / 2 ≤ acc0 + sumM (ms.take j)) ∧ (0 < j → acc0 + sumM (ms.take (j - 1)) < full / 2) := by
  intro ms
  induction ms with
  | nil => intro n0 acc0; exact ⟨0, Nat.le_refl _, by simp [halfPoint, sumM], by simp, by simp⟩
  | cons m ms ih =>
    intro n0 acc0
    by_cases hlt : acc0 < full / 2
    · obtain ⟨j, hj, e, h1, h2⟩ := ih (n0 + 1) (acc0 + (m.size + MSZ))
      refine ⟨j + 1, by simpa using hj, ?_, ?_, ?_⟩
      · unfold halfPoint
        rw [if_pos hlt, e]
        simp only [List.take_succ_cons, sumM, List.map_cons, List.sum_cons, MSZ]
        refine Prod.ext ?_ ?_
        · simp only; omega
        · simp only; omega
      · intro hl
        have := h1 (by simpa using hl)
        simp only [List.take_succ_cons, sumM, List.map_cons, List.sum_cons, MSZ] at this ⊢
        omega
      · intro _
        cases j with
        | zero => simpa [sumM] using hlt
        | succ j =>
          have := h2 (Nat.succ_pos _)
          simp only [Nat.add_sub_cancel, List.take_succ_cons, sumM, List.map_cons, List.sum_cons, MSZ] at this ⊢
          omega
    · refine ⟨0, Nat.zero_le _, ?_, ?_, by simp⟩
      · unfold halfPoint
        rw [if_neg hlt]
        simp [sumM, MSZ]
      · intro _
        simp only [List.take_zero, sumM, List.map_nil, List.sum_nil]
        omega

/-- What a result of `split_append` has to be. -/
structure Good (b : Block K) (k : K) (x : Bytes) (r : Block K × Block K × Option (Block K)) : Prop where
  inv : ∀ p ∈ pages r, Inv p
  perm : ((pages r).flatMap iterate).Perm ((k, x) :: entries b)
  order : (((pages r).flatMap iterate).map Prod.fst).Pairwise (· ≤ ·)
  ne : ∀ p ∈ pages r, entries p ≠ []
  size : ∀ p ∈ pages r, p.full = b.full ∨ p.full = alignToBlock (x.length + HSZ + MSZ)

theorem good_two {b b1 b2 : Block K} {k : K} {x : Bytes} (h1 : Inv b1) (h2 : Inv b2)
    (hp : (entries b2 ++ entries b1).Perm ((k, x) :: entries b))
    (ho : ∀ e ∈ entries b1, ∀ f ∈ entries b2, e.1 ≤ f.1) (n1 : entries b1 ≠ []) (n2 : entries b2 ≠ [])
    (z1 : b1.full = b.full) (z2 : b2.full = b.full ∨ b2.full = alignToBlock (x.length + HSZ + MSZ)) :
    Good b k x (b1, b2, none) := by
  have he : (pages (b1, b2, none)).flatMap iterate = iterate b1 ++ iterate b2 := by simp [pages]
  refine ⟨?_, ?_, ?_, ?_, ?_⟩
  · intro p hpp
    simp only [pages, Option.toList_none, List.mem_cons, List.not_mem_nil, or_false] at hpp
    rcases hpp with rfl | rfl
    · exact h1
    · exact h2
  · rw [he, iterate_eq, iterate_eq]
    exact ((List.reverse_perm _).append (List.reverse_perm _)).trans (List.perm_append_comm.trans hp)
  · rw [he, List.map_append]
    refine List.pairwise_append.mpr ⟨iterate_sorted h1, iterate_sorted h2, ?_⟩
    intro p hp' q hq'
    obtain ⟨e, he', rfl⟩ := List.mem_map.mp hp'
    obtain ⟨f, hf', rfl⟩ := List.mem_map.mp hq'
    rw [iterate_eq, List.mem_reverse] at he' hf'
    exact ho e he' f hf'
  · intro p hpp
    simp only [pages, Option.toList_none, List.mem_cons, List.not_mem_nil, or_false] at hpp
    rcases hpp with rfl | rfl
    · exact n1
    · exact n2
  · intro p hpp
    simp only [pages, Option.toList_none, List.mem_cons, List.not_mem_nil, or_false] at hpp
    rcases hpp with rfl | rfl
    · exact Or.inl z1
    · exact z2

theorem good_three {b b1 b2 b3 : Block K} {k : K} {x : Bytes} (h1 : Inv b1) (h2 : Inv b2) (h3 : Inv b3)
    (hp : (entries b3 ++ (entries b2 ++ entries b1)).Perm ((k, x) :: entries b))
    (ho : ∀ e ∈ entries b1, ∀ f ∈ entries b2, e.1 ≤ f.1) (ho2 : ∀ e ∈ entries b2, ∀ f ∈ entries b3, e.1 ≤ f.1)
    (ho3 : ∀ e ∈ entries b1, ∀ f ∈ entries b3, e.1 ≤ f.1)
    (n1 : entries b1 ≠ []) (n2 : entries b2 ≠ []) (n3 : entries b3 ≠ [])
    (z1 : b1.full = b.full) (z2 : b2.full = alignToBlock (x.length + HSZ + MSZ)) (z3 : b3.full = b.full) :
    Good b k x (b1, b2, some b3) := by
  have he : (pages (b1, b2, some b3)).flatMap iterate = iterate b1 ++ (iterate b2 ++ iterate b3) := by simp [pages]
  have hx : ∀ {p q : Block K}, (∀ e ∈ entries p, ∀ f ∈ entries q, e.1 ≤ f.1) →
      ∀ a ∈ (iterate p).map Prod.fst, ∀ c ∈ (iterate q).map Prod.fst, a ≤ c := by
    intro p q hpq a ha c hc
    obtain ⟨e, he', rfl⟩ := List.mem_map.mp ha
    obtain ⟨f, hf', rfl⟩ := List.mem_map.mp hc
    rw [iterate_eq, List.mem_reverse] at he' hf'
    exact hpq e he' f hf'
  refine ⟨?_, ?_, ?_, ?_, ?_⟩
  · intro p hpp
    simp only [pages, Option.toList_some, List.mem_cons, List.not_mem_nil, or_false] at hpp
    rcases hpp with rfl | rfl | rfl
    · exact h1
    · exact h2
    · exact h3
  · rw [he, iterate_eq, iterate_eq, iterate_eq]
    refine List.Perm.trans ?_ hp
    refine ((List.reverse_perm _).append ((List.reverse_perm _).append (List.reverse_perm _))).trans ?_
    refine List.perm_append_comm.trans ?_
    rw [List.append_assoc]
    exact List.perm_append_comm_assoc _ _ _
  · rw [he, List.map_append, List.map_append]
    refine List.pairwise_append.mpr ⟨iterate_sorted h1,
      List.pairwise_append.mpr ⟨iterate_sorted h2, iterate_sorted h3, hx ho2⟩, ?_⟩
    intro a ha c hc
    rcases List.mem_append.mp hc with hc | hc
    · exact hx ho a ha c hc
    · exact hx ho3 a ha c hc
  · intro p hpp
    simp only [pages, Option.toList_some, List.mem_cons, List.not_mem_nil, or_false] at hpp
    rcases hpp with rfl | rfl | rfl
    · exact n1
    · exact n2
    · exact n3
  · intro p hpp
    simp only [pages, Option.toList_some, List.mem_cons, List.not_mem_nil, or_false] at hpp
    rcases hpp with rfl | rfl | rfl
    · exact Or.inl z1
    · exact Or.inr z2
    · exact Or.inl z3

theorem take_drop_perm (l : List (K × Bytes)) (n : Nat) : (l.take n ++ l.drop n).Perm l := by rw [List.take_append_drop]

/-- The entries before position `n` have keys at least those from `n` on. -/
theorem split_order {b : Block K} (h : Inv b) (n : Nat) : ∀ e ∈ (entries b).drop n, ∀ f ∈ (entries b).take n, e.1 ≤ f.1 := by
  have hs : (entries b).Pairwise fun e f => f.1 ≤ e.1 := by
    unfold entries
    rw [List.pairwise_map]
    exact h.sorted
  rw [← List.take_append_drop n (entries b)] at hs
  have := (List.pairwise_append.mp hs).2.2
  intro e he f hf
  exact this f hf e he

/-- The part of `split_append` after the first attempt. -/
theorem fall_ok {b : Block K} (h : Inv b) (hf : HSZ ≤ b.full) {k : K} {x : Bytes} (hx : 0 < x.length)
    (hn : (k, x) ∉ entries b) (hne : entries b ≠ []) (hfit : 16 + x.length + 24 ≤ b.full) :
    ∃ r, (if (before b k).isEmpty then some (b, fresh k x, none)
      else
        (split b (before b k).length).map fun (b1, b2) =>
          let (b1', ok1) := append b1 k x
          if ok1 then (b1', b2, none)
          else
            let (b2', ok2) := append b2 k x
            if ok2 then (b1, b2', none) else (b1, fresh k x, some b2)) = some r ∧ Good b k x r := by
  obtain ⟨fi, fe⟩ := fresh_ok k hx
  have hms : b.metas = before b k ++ fromBegin b k := by rw [fromBegin_eq]; exact metas_split b k
  cases hb : (before b k).isEmpty with
  | true =>
    simp only [if_true]
    refine ⟨_, rfl, good_two h fi ?_ ?_ ?_ ?_ ?_ ?_⟩
    · rw [fe]; exact List.Perm.refl _
    · intro e he f hff
      rw [fe] at hff
      obtain rfl := List.mem_singleton.mp hff
      obtain ⟨m, hm, hk, _⟩ := mem_entries.mp he
      rw [hms, List.isEmpty_iff.mp hb, List.nil_append] at hm
      rw [← hk]
      exact fromBegin_le h.sorted hm
    · exact hne
    · rw [fe]; exact List.cons_ne_nil _ _
    · rfl
    · exact Or.inr (fresh_full k x)
  | false =>
    simp only [Bool.false_eq_true, if_false]
    have hlen : (before b k).length ≤ b.metas.length := by
      rw [hms, List.length_append]; omega
    obtain ⟨b1, b2, es, i1, i2, e2, e1, f1, f2⟩ := split_ok h hf hlen
    have ht : (entries b).take (before b k).length = (before b k).map fun m => (m.key, item b m) := by
      unfold entries
      conv_lhs => rw [hms]
      rw [← List.map_take, List.take_left]
    have hd : (entries b).drop (before b k).length = (fromBegin b k).map fun m => (m.key, item b m) := by
      unfold entries
      conv_lhs => rw [hms]
      rw [← List.map_drop, List.drop_left]
    have hlow : ∀ e ∈ entries b1, e.1 ≤ k := by
      intro e he
      rw [e1, hd] at he
      obtain ⟨m, hm, rfl⟩ := List.mem_map.mp he
      exact fromBegin_le h.sorted hm
    have hhigh : ∀ e ∈ entries b2, k ≤ e.1 := by
      intro e he
      rw [e2, ht] at he
      obtain ⟨m, hm, rfl⟩ := List.mem_map.mp he
      exact le_of_lt (before_gt hm)
    have hn1 : (k, x) ∉ entries b1 := fun hc => hn (by rw [e1] at hc; exact List.mem_of_mem_drop hc)
    have hn2 : (k, x) ∉ entries b2 := fun hc => hn (by rw [e2] at hc; exact List.mem_of_mem_take hc)
    have hall : (entries b2 ++ entries b1).Perm (entries b) := by rw [e1, e2, List.take_append_drop]
    have hne2 : entries b2 ≠ [] := by
      rw [e2, ht]
      intro hc
      rw [List.map_eq_nil_iff.mp hc] at hb
      cases hb
    rw [es]
    simp only [Option.map_some]
    rcases append_cases i1 k x with ⟨ea, hno⟩ | ⟨ea, _, hr⟩
    · have hne1 : entries b1 ≠ [] := by
        intro hc
        rcases hno with hno | hno
        · exact hn1 hno
        · rw [hc, f1] at hno
          simp only [used, List.map_nil, List.sum_nil] at hno
          omega
      rw [ea]
      simp only [Bool.false_eq_true, if_false]
      rcases append_cases i2 k x with ⟨ec, _⟩ | ⟨ec, _, hr⟩
      · rw [ec]
        simp only [Bool.false_eq_true, if_false]
        refine ⟨_, rfl, good_three i1 fi i2 ?_ ?_ ?_ ?_ ?_ ?_ ?_ ?_ ?_ ?_⟩
        · rw [fe]
          exact List.perm_middle.trans (hall.cons _)
        · intro e he f hff
          rw [fe] at hff
          obtain rfl := List.mem_singleton.mp hff
          exact hlow e he
        · intro e he f hff
          rw [fe] at he
          obtain rfl := List.mem_singleton.mp he
          exact hhigh f hff
        · intro e he f hff
          exact le_trans (hlow e he) (hhigh f hff)
        · exact hne1
        · rw [fe]; exact List.cons_ne_nil _ _
        · exact hne2
        · exact f1
        · exact fresh_full k x
        · exact f2
      · rw [ec]
        simp only [if_true]
        refine ⟨_, rfl, good_two i1 (appended_inv i2 hx hn2 hr) ?_ ?_ ?_ ?_ ?_ ?_⟩
        · exact ((appended_perm i2 k x).append_right _).trans (hall.cons _)
        · intro e he f hff
          rcases List.mem_cons.mp ((appended_perm i2 k x).mem_iff.mp hff) with rfl | hff
          · exact hlow e he
          · exact le_trans (hlow e he) (hhigh f hff)
        · exact hne1
        · exact fun hc => by
            have := (appended_perm i2 k x).length_eq
            rw [hc] at this
            cases this
        · exact f1
        · exact Or.inl f2
    · rw [ea]
      simp only [if_true]
      refine ⟨_, rfl, good_two (appended_inv i1 hx hn1 hr) i2 ?_ ?_ ?_ ?_ ?_ ?_⟩
      · exact ((appended_perm i1 k x).append_left _).trans (List.perm_middle.trans (hall.cons _))
      · intro e he f hff
        rcases List.mem_cons.mp ((appended_perm i1 k x).mem_iff.mp he) with rfl | he
        · exact hhigh f hff
        · exact le_trans (hlow e he) (hhigh f hff)
      · exact fun hc => by
          have := (appended_perm i1 k x).length_eq
          rw [hc] at this
          cases this
      · exact hne2
      · exact f1
      · exact Or.inl f2

theorem splitAppend_ok {kmin : K} {b : Block K} (h : Inv b) (hf : HSZ ≤ b.full) {k : K} {x : Bytes} (hx : 0 < x.length)
    (hn : (k, x) ∉ entries b) (hfull : b.full < 16 + used (entries b) + x.length + 24)
    (hsmall : ∀ e ∈ entries b, e.2.length + 32 ≤ b.full / 4) (hxs : x.length + 32 ≤ b.full / 4) :
    ∃ r, splitAppend kmin b k x = some r ∧ Good b k x r := by
  obtain ⟨j, hj, ehp, hp1, hp2⟩ := halfPoint_ok b.full b.metas 0 0
  have hinv := inv_used h
  have hsum : sumM (b.metas.take j) + sumM (b.metas.drop j) = sumM b.metas := by
    have := used_append ((entries b).take j) ((entries b).drop j)
    rw [List.take_append_drop, used_all, used_take, used_drop] at this
    exact this.symm
  have hall := used_all b
  -- the scan does not reach the end
  have hjl : j < b.metas.length := by
    by_contra hc
    have hje : j = b.metas.length := by omega
    have hpos : 0 < j := by
      by_contra h0
      have : b.metas = [] := List.length_eq_zero_iff.mp (by omega)
      rw [this] at hall
      simp only [sumM, List.map_nil, List.sum_nil] at hall
      omega
    have h2 := hp2 hpos
    have hsplit : sumM (b.metas.take (j - 1)) + sumM (b.metas.drop (j - 1)) = sumM b.metas := by
      have := used_append ((entries b).take (j - 1)) ((entries b).drop (j - 1))
      rw [List.take_append_drop, used_all, used_take, used_drop] at this
      exact this.symm
    have hlt : j - 1 < b.metas.length := by omega
    rw [List.drop_eq_getElem_cons hlt, List.drop_eq_nil_of_le (by omega)] at hsplit
    simp only [sumM, List.map_cons, List.map_nil, List.sum_cons, List.sum_nil] at hsplit
    have hm := hsmall (b.metas[j - 1].key, item b b.metas[j - 1])
      (List.mem_map.mpr ⟨_, List.getElem_mem hlt, rfl⟩)
    simp only [item, slice_length] at hm
    unfold sumM at h2 hall
    omega
  have hp1' := hp1 hjl
  simp only [Nat.zero_add] at ehp hp1'
  have hnext : sumM (b.metas.take (j + 1)) = sumM (b.metas.take j) + ((b.metas[j]).size + 24) := by
    rw [List.take_succ_eq_append_getElem hjl, sumM_concat]
  have hmj := hsmall (b.metas[j].key, item b b.metas[j]) (List.mem_map.mpr ⟨_, List.getElem_mem hjl, rfl⟩)
  simp only [item, slice_length] at hmj
  obtain ⟨b1, b2, es, i1, i2, e2, e1, f1, f2⟩ := split_ok h hf (n := j) hj
  have hu1 : used (entries b1) = sumM (b.metas.drop j) := by rw [e1, used_drop]
  have hu2 : used (entries b2) = sumM (b.metas.take j) := by rw [e2, used_take]
  have hn1 : (k, x) ∉ entries b1 := fun hc => hn (by rw [e1] at hc; exact List.mem_of_mem_drop hc)
  have hn2 : (k, x) ∉ entries b2 := fun hc => hn (by rw [e2] at hc; exact List.mem_of_mem_take hc)
  have hkj : (((b.metas[j]?).map (·.key)).getD kmin) = b.metas[j].key := by
    rw [List.getElem?_eq_getElem hjl]; rfl
  have hatend : decide (j = b.metas.length) = false := by simp; omega
  have hord := split_order h j
  -- keys of the lower part are at most the split key
  have hlow : ∀ e ∈ entries b1, e.1 ≤ b.metas[j].key := by
    intro e he
    rw [e1] at he
    have : (entries b).drop j = (b.metas[j].key, item b b.metas[j]) :: (entries b).drop (j + 1) := by
      unfold entries
      rw [← List.map_drop, List.drop_eq_getElem_cons hjl, List.map_cons, List.map_drop]
    have hs : ((entries b).drop j).Pairwise fun e f => f.1 ≤ e.1 := by
      refine List.Pairwise.sublist (List.drop_sublist _ _) ?_
      unfold entries
      rw [List.pairwise_map]
      exact h.sorted
    rw [this] at hs he
    rcases List.mem_cons.mp he with rfl | he
    · exact le_refl _
    · exact (List.pairwise_cons.mp hs).1 e he
  have hhigh : ∀ e ∈ entries b2, b.metas[j].key ≤ e.1 := by
    intro e he
    rw [e2] at he
    refine hord (b.metas[j].key, item b b.metas[j]) ?_ e he
    unfold entries
    rw [← List.map_drop, List.drop_eq_getElem_cons hjl]
    exact List.mem_map.mpr ⟨_, List.mem_cons_self .., rfl⟩
  have hne1 : entries b1 ≠ [] := by
    intro hc
    have := congrArg List.length hc
    rw [e1, List.length_drop, List.length_nil] at this
    unfold entries at this
    rw [List.length_map] at this
    omega
  have hne2 : entries b2 ≠ [] := by
    intro hc
    rw [hc] at hu2
    simp only [used, List.map_nil, List.sum_nil] at hu2
    omega
  have hne : entries b ≠ [] := by
    intro hc
    unfold entries at hc
    rw [List.map_eq_nil_iff.mp hc] at hjl
    cases hjl
  have hfit : 16 + x.length + 24 ≤ b.full := by omega
  unfold splitAppend
  rw [ehp]
  simp only [hkj, hatend, Bool.false_and, Bool.false_eq_true, if_false]
  by_cases hk : b.metas[j].key < k
  · -- to the split-off page
    rw [decide_eq_true hk]
    simp only [Bool.not_true, Bool.not_false, if_true]
    by_cases hposs : x.length + sumM (b.metas.take (j + 1)) < b.full - MSZ
    · rw [decide_eq_true hposs, es]
      simp only [if_true, Option.map_some, Bool.false_eq_true, if_false]
      obtain ⟨b2', a1, a2, a3, a4⟩ := append_ok i2 (k := k) hx hn2 (by unfold MSZ at hposs; omega)
      refine ⟨_, rfl, ?_⟩
      rw [a1]
      refine good_two i1 a2 ?_ ?_ ?_ ?_ ?_ ?_
      · refine (a3.append_right _).trans ?_
        rw [List.cons_append, e1, e2, List.take_append_drop]
      · intro e he f hff
        rcases List.mem_cons.mp (a3.mem_iff.mp hff) with rfl | hff
        · exact le_trans (hlow e he) (le_of_lt hk)
        · exact le_trans (hlow e he) (hhigh f hff)
      · exact hne1
      · exact fun hc => by
          have := a3.length_eq
          rw [hc] at this
          cases this
      · exact f1
      · exact Or.inl (a4.trans f2)
    · rw [decide_eq_false hposs]
      simp only [Bool.false_eq_true, if_false]
      exact fall_ok h hf hx hn hne hfit
  · -- to this page
    rw [decide_eq_false hk]
    simp only [Bool.not_false, Bool.not_true, Bool.false_eq_true, if_false, if_true]
    have hposs : x.length + MSZ < b.avail + sumM (b.metas.take (j + 1)) := by unfold MSZ; omega
    rw [decide_eq_true hposs, es]
    simp only [if_true, Option.map_some]
    obtain ⟨b1', a1, a2, a3, a4⟩ := append_ok i1 (k := k) hx hn1 (by omega)
    refine ⟨_, rfl, ?_⟩
    rw [a1]
    refine good_two a2 i2 ?_ ?_ ?_ ?_ ?_ ?_
    · refine (a3.append_left _).trans ?_
      refine List.perm_middle.trans ?_
      rw [e1, e2, List.take_append_drop]
    · intro e he f hff
      rcases List.mem_cons.mp (a3.mem_iff.mp he) with rfl | he
      · exact le_trans (not_lt.mp hk) (hhigh f hff)
      · exact le_trans (hlow e he) (hhigh f hff)
    · exact fun hc => by
        have := a3.length_eq
        rw [hc] at this
        cases this
    · exact hne2
    · exact a4.trans f1
    · exact Or.inl f2

end Verif.Block
