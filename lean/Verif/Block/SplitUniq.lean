import Verif.Block.SplitAppend
/-!
`split_uniques` of a page, core/b_plus_tree/block.cpp:446-486.
-/
namespace Verif.Block
variable {K : Type} [LinearOrder K]

/-- The loop of `split_uniques`, block.cpp:471-481: how many entries are moved.  `ic` is `index_count`,
`prev` is `prev_index`, the list is what lies beyond the current entry. -/
def walk (n : Nat) : Nat → K → List (Meta K) → Nat
  | _, _, [] => 0
  | ic, prev, m :: ms => if ic ≤ n then walk n (if m.key ≠ prev then ic + 1 else ic) m.key ms + 1 else 0

/-- `split_uniques`, block.cpp:446-486: the entries of the `n` largest keys go to a new page, in the order of
the array (line 479).  Result: the rest and the new page. -/
def splitUniques (b : Block K) (n : Nat) : Option (Block K × Block K) :=
  if n = 0 then some (b, empty b.full)
  else if n = b.uniq then some (empty b.full, b)
  else
    match b.metas with
    | [] => none
    | m :: ms =>
      let j := walk n 1 m.key ms
      let moved := b.metas.take j
      let rest := b.metas.drop j
      let b1 := { b with count := b.count - j, uniq := b.uniq - n }
      (removeRange b1 [] moved rest).map fun b2 => (b2, copyInto b (empty b.full) moved)

theorem copyInto_perm {src : Block K} : ∀ (ms : List (Meta K)) (dst : Block K), Inv dst →
    (∀ m ∈ ms, 0 < m.size) → (ms.map (fun m => (m.key, item src m)) ++ entries dst).Nodup →
    16 + used (ms.map fun m => (m.key, item src m)) + used (entries dst) ≤ dst.full →
    Inv (copyInto src dst ms) ∧
      (entries (copyInto src dst ms)).Perm ((ms.map fun m => (m.key, item src m)) ++ entries dst) ∧
      (copyInto src dst ms).full = dst.full := by
  intro ms
  induction ms with
  | nil => intro dst h _ _ _; exact ⟨h, List.Perm.refl _, rfl⟩
  | cons m ms ih =>
    intro dst h hp hnd hroom
    rw [List.map_cons, List.cons_append, List.nodup_cons] at hnd
    have hused : used ((m :: ms).map fun m => (m.key, item src m)) =
        (item src m).length + 24 + used (ms.map fun m => (m.key, item src m)) := by
      unfold used; simp
    rw [hused] at hroom
    obtain ⟨b', a1, a2, a3, a4⟩ := append_ok h (k := m.key) (x := item src m)
      (by have := hp m (List.mem_cons_self ..); simp only [item, slice_length]; exact this)
      (fun hc => hnd.1 (List.mem_append_right _ hc)) (by omega)
    have hcop : copyInto src dst (m :: ms) = copyInto src b' ms := by
      show copyInto src (append dst m.key (item src m)).1 ms = _
      rw [a1]
    have hu : used (entries b') = (item src m).length + 24 + used (entries dst) := by
      rw [used_perm a3]; unfold used; simp
    obtain ⟨i1, i2, i3⟩ := ih b' a2 (fun n hn => hp n (List.mem_cons_of_mem _ hn))
      ((((a3.append_left _).trans List.perm_middle).nodup_iff).mpr (List.nodup_cons.mpr hnd))
      (by rw [hu, a4]; omega)
    rw [hcop]
    exact ⟨i1, i2.trans ((a3.append_left _).trans List.perm_middle), i3.trans a4⟩

theorem walk_ok (n : Nat) : ∀ (ms : List (Meta K)) (p : Meta K) (ic : Nat), SortedM (p :: ms) → ic ≤ n →
    n - ic + 1 < distinctKeys (p :: ms) →
    1 ≤ walk n ic p.key ms ∧ walk n ic p.key ms ≤ ms.length ∧
    distinctKeys ((p :: ms).take (walk n ic p.key ms)) = n - ic + 1 ∧
    (∀ a ∈ (p :: ms).take (walk n ic p.key ms), ∀ c ∈ (p :: ms).drop (walk n ic p.key ms), c.key < a.key) := by
  intro ms
  induction ms with
  | nil =>
    intro p ic _ _ h
    simp only [distinctKeys, List.map_cons, List.map_nil, List.toFinset_cons, List.toFinset_nil] at h
    simp at h
  | cons m ms ih =>
    intro p ic hs hic hd
    obtain ⟨hs1, hs2⟩ := List.pairwise_cons.mp hs
    have hle := hs1 m (List.mem_cons_self ..)
    have hw : walk n ic p.key (m :: ms) = walk n (if m.key ≠ p.key then ic + 1 else ic) m.key ms + 1 := by
      simp only [walk, if_pos hic]
    rw [hw]
    by_cases he : m.key = p.key
    · rw [if_neg (by simpa using he)]
      have hdk : distinctKeys (p :: m :: ms) = distinctKeys (m :: ms) := by
        rw [distinctKeys_cons, if_pos (List.mem_map.mpr ⟨m, List.mem_cons_self .., he⟩), Nat.add_zero]
      rw [hdk] at hd
      obtain ⟨j1, j2, j3, j4⟩ := ih m ic hs2 hic hd
      have hmt : m ∈ (m :: ms).take (walk n ic m.key ms) := by
        obtain ⟨q, hq⟩ : ∃ q, walk n ic m.key ms = q + 1 := ⟨walk n ic m.key ms - 1, by omega⟩
        rw [hq, List.take_succ_cons]
        exact List.mem_cons_self ..
      refine ⟨by omega, by simp only [List.length_cons]; omega, ?_, ?_⟩
      · rw [List.take_succ_cons, distinctKeys_cons, if_pos (List.mem_map.mpr ⟨m, hmt, he⟩), j3, Nat.add_zero]
      · rw [List.take_succ_cons, List.drop_succ_cons]
        intro a ha c hc
        rcases List.mem_cons.mp ha with rfl | ha
        · rw [← he]; exact j4 m hmt c hc
        · exact j4 a ha c hc
    · rw [if_pos (by simpa using he)]
      have hlt : m.key < p.key := lt_of_le_of_ne hle he
      have hall : ∀ c ∈ m :: ms, c.key < p.key := by
        intro c hc
        rcases List.mem_cons.mp hc with rfl | hc
        · exact hlt
        · exact lt_of_le_of_lt ((List.pairwise_cons.mp hs2).1 c hc) hlt
      have hnm : ∀ l : List (Meta K), (∀ c ∈ l, c ∈ m :: ms) → p.key ∉ l.map (·.key) := by
        intro l hl hc
        obtain ⟨c, hc1, hc2⟩ := List.mem_map.mp hc
        have := hall c (hl c hc1)
        rw [hc2] at this
        exact lt_irrefl _ this
      have hdk : distinctKeys (p :: m :: ms) = distinctKeys (m :: ms) + 1 := by
        rw [distinctKeys_cons, if_neg (hnm _ fun _ h => h)]
      rw [hdk] at hd
      by_cases hn : ic + 1 ≤ n
      · obtain ⟨j1, j2, j3, j4⟩ := ih m (ic + 1) hs2 hn (by omega)
        refine ⟨by omega, by simp only [List.length_cons]; omega, ?_, ?_⟩
        · rw [List.take_succ_cons, distinctKeys_cons, if_neg (hnm _ fun _ h => List.mem_of_mem_take h), j3]
          omega
        · rw [List.take_succ_cons, List.drop_succ_cons]
          intro a ha c hc
          rcases List.mem_cons.mp ha with rfl | ha
          · exact hall c (List.mem_of_mem_drop hc)
          · exact j4 a ha c hc
      · have hz : walk n (ic + 1) m.key ms = 0 := by
          cases ms with
          | nil => rfl
          | cons q ms => simp only [walk, if_neg hn]
        rw [hz]
        refine ⟨by omega, by simp only [List.length_cons]; omega, ?_, ?_⟩
        · simp only [Nat.zero_add, List.take_succ_cons, List.take_zero, distinctKeys, List.map_cons, List.map_nil,
            List.toFinset_cons, List.toFinset_nil]
          simp
          omega
        · rw [Nat.zero_add, List.take_succ_cons, List.drop_succ_cons, List.take_zero, List.drop_zero]
          intro a ha c hc
          obtain rfl := List.mem_singleton.mp ha
          exact hall c hc

/-- `split_uniques` moves exactly the entries of the `n` largest keys. -/
theorem splitUniques_ok {b : Block K} (h : Inv b) (hf : HSZ ≤ b.full) {n : Nat} (hn : n ≤ b.uniq) :
    ∃ b1 b2, splitUniques b n = some (b1, b2) ∧ Inv b1 ∧ Inv b2 ∧ (entries b2 ++ entries b1).Perm (entries b) ∧
      (∀ e ∈ entries b1, ∀ f ∈ entries b2, e.1 < f.1) ∧ b1.uniq = b.uniq - n ∧ b2.uniq = n ∧
      b1.full = b.full ∧ b2.full = b.full := by
  unfold splitUniques
  by_cases h0 : n = 0
  · subst h0
    refine ⟨b, empty b.full, by simp, h, empty_inv hf, List.Perm.refl _, ?_, rfl, rfl, rfl, rfl⟩
    intro e _ f hff
    cases hff
  rw [if_neg h0]
  by_cases hc : n = b.uniq
  · rw [if_pos hc]
    refine ⟨empty b.full, b, rfl, empty_inv hf, h, ?_, fun e he => by (cases he), ?_, hc.symm, rfl, rfl⟩
    · show (entries b ++ []).Perm _
      rw [List.append_nil]
    · show 0 = _
      omega
  rw [if_neg hc]
  cases hm : b.metas with
  | nil =>
    have := h.unq
    rw [hm] at this
    simp only [distinctKeys, List.map_nil, List.toFinset_nil, Finset.card_empty] at this
    omega
  | cons m ms =>
    have hs := h.sorted
    have hu := h.unq
    rw [hm] at hs hu
    obtain ⟨j1, j2, j3, j4⟩ := walk_ok n ms m 1 hs (by omega) (by omega)
    simp only
    generalize walk n 1 m.key ms = j at *
    have hlen : ((m :: ms).take j).length = j := by rw [List.length_take]; simp only [List.length_cons]; omega
    have hms : b.metas = [] ++ ((m :: ms).take j ++ (m :: ms).drop j) := by rw [hm, List.nil_append, List.take_append_drop]
    have hne : (m :: ms).take j ≠ [] := by
      intro he
      rw [he] at hlen
      simp only [List.length_nil] at hlen
      omega
    have hdis : ∀ a ∈ (m :: ms).take j, a.key ∉ ((m :: ms).drop j).map (·.key) := by
      intro a ha hcc
      obtain ⟨c, hc1, hc2⟩ := List.mem_map.mp hcc
      have := j4 a ha c hc1
      rw [hc2] at this
      exact lt_irrefl _ this
    have hdk := distinctKeys_append hdis
    rw [List.take_append_drop, j3, ← hu] at hdk
    obtain ⟨b1, e1, e2, e3, e4⟩ := dropRange_ok h hms hne (u := b.uniq - n) (by rw [List.nil_append]; omega)
    rw [hlen] at e1
    have hperm : ((((m :: ms).take j).map fun m => (m.key, item b m)) ++ (((m :: ms).drop j).map fun m => (m.key, item b m))) =
        entries b := by
      rw [← List.map_append, List.take_append_drop, ← hm]
      rfl
    have hnd := h.nodup
    rw [← hperm] at hnd
    obtain ⟨c1, c2, c3⟩ := copyInto_perm (src := b) ((m :: ms).take j) (empty b.full) (empty_inv hf)
      (fun q hq => h.pos q (by rw [hm]; exact List.mem_of_mem_take hq))
      (by
        show (_ ++ []).Nodup
        rw [List.append_nil]
        exact (List.nodup_append.mp hnd).1)
      (by
        show 16 + used _ + 0 ≤ b.full
        have h1 := inv_used h
        rw [← hperm, used_append] at h1
        omega)
    have c2' : (entries (copyInto b (empty b.full) ((m :: ms).take j))).Perm (((m :: ms).take j).map fun m => (m.key, item b m)) := by
      have : (entries (empty b.full : Block K)) = [] := rfl
      rw [this, List.append_nil] at c2
      exact c2
    rw [List.nil_append] at e3
    refine ⟨b1, copyInto b (empty b.full) ((m :: ms).take j), ?_, e2, c1, ?_, ?_, ?_, ?_, e4, c3⟩
    · have e1' := e1
      simp only [hm] at e1'
      rw [e1']; rfl
    · rw [e3, ← hperm]
      exact c2'.append_right _
    · intro e he f hff
      rw [e3] at he
      obtain ⟨c, hc1, rfl⟩ := List.mem_map.mp he
      obtain ⟨a, ha1, rfl⟩ := List.mem_map.mp (c2'.mem_iff.mp hff)
      exact j4 a ha1 c hc1
    · rw [e2.unq]
      have : b1.metas.map (·.key) = ((m :: ms).drop j).map (·.key) := by
        rw [← entries_keys, e3, List.map_map]; rfl
      rw [distinctKeys_congr this]
      omega
    · rw [c1.unq]
      have : ((copyInto b (empty b.full) ((m :: ms).take j)).metas.map (·.key)).Perm (((m :: ms).take j).map (·.key)) := by
        rw [← entries_keys]
        have := c2'.map Prod.fst
        rw [List.map_map] at this
        exact this
      unfold distinctKeys at j3 ⊢
      rw [List.toFinset_eq_of_perm _ _ this, j3]
      omega

end Verif.Block
