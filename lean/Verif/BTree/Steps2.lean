import Verif.BTree.Steps
/-!
Helper lemmas: removal.
-/
namespace Verif.BTree
open Verif.Seg
set_option linter.unusedSectionVars false
variable {K : Type} [LinearOrder K] [BoundedOrder K]

/-- Leaves replaced by others with the same entries. -/
theorem LInv.swap {A M M' B : List (Leaf K)} (h : LInv (A ++ M ++ B)) (hM : ∀ l ∈ M', UInv l.seg ∧ l.locked = false ∧ lflat l ≠ [])
    (he : fl M' = fl M) : LInv (A ++ M' ++ B) ∧ fl (A ++ M' ++ B) = fl (A ++ M ++ B) := by
  obtain ⟨h1, h2, _⟩ := h.append
  obtain ⟨h3, h4, _⟩ := h1.append
  have hs := h.strict
  rw [fl_append, fl_append, ← he] at hs
  exact ⟨LInv.glue h3 h2 hM hs (by rw [he]; exact h4.top), by rw [fl_append, fl_append, fl_append, fl_append, he]⟩

theorem lseg {A B : List (Leaf K)} {l : Leaf K} (h : LInv (A ++ l :: B)) : UInv l.seg ∧ l.locked = false ∧ lflat l ≠ [] :=
  ⟨h.seg l (by simp), h.open' l (by simp), h.ne l (by simp)⟩

/-- Two neighbours. -/
theorem pair_lt {A B : List (Leaf K)} {a b : Leaf K} (h : LInv (A ++ [a, b] ++ B)) :
    (∀ e ∈ lflat a, ∀ f ∈ lflat b, e.1 < f.1) ∧ Uk (lflat a ++ lflat b) ∧ UInv a.seg ∧ UInv b.seg ∧
      a.seg.blocks ≠ [] ∧ b.seg.blocks ≠ [] := by
  obtain ⟨h1, _, _⟩ := h.append
  obtain ⟨_, h2, _⟩ := h1.append
  have h2' : LInv ([a] ++ [b]) := h2
  obtain ⟨_, _, h3⟩ := h2'.append
  have ea : fl [a] = lflat a := by rw [fl_cons, fl_nil, List.append_nil]
  have eb : fl [b] = lflat b := by rw [fl_cons, fl_nil, List.append_nil]
  rw [ea, eb] at h3
  have es : fl ([a] ++ [b]) = lflat a ++ lflat b := by rw [fl_append, ea, eb]
  have hs := h2'.strict
  have ht := h2'.top
  rw [es] at hs ht
  exact ⟨h3, hs.uk ht, h2.seg a (by simp), h2.seg b (by simp), useg_ne (h2.ne a (by simp)), useg_ne (h2.ne b (by simp))⟩

/-- What repairing the tree after an underflow must establish. -/
structure Fixed (mx : Nat) (want : List (K × Bytes)) (ls : List (Leaf K)) (lv : List (List Nat)) : Prop where
  leaf : LInv ls
  same : fl ls = want
  size : ∀ l ∈ ls, l.seg.uniq ≤ mx ∧ (lv ≠ [] → mx / 4 ≤ l.seg.uniq)
  shape : Shape mx lv ls.length

theorem fixLeaf_ok {mx : Nat} (h12 : 12 ≤ mx) {byItems : Bool} {A B : List (Leaf K)} {l : Leaf K} {lv : List (List Nat)} {s : Seg K}
    (hL : LInv (A ++ ⟨s, false⟩ :: B)) (hsz : ∀ q, q ∈ A ∨ q ∈ B → q.seg.uniq ≤ mx ∧ mx / 4 ≤ q.seg.uniq) (hs : s.uniq + 1 = mx / 4)
    (hlv : lv ≠ []) (hsh : Shape mx lv (A ++ l :: B).length) :
    ∃ ls' lv', fixLeaf mx byItems (A ++ l :: B) lv A.length s = .ok (ls', lv') ∧
      Fixed mx (fl (A ++ ⟨s, false⟩ :: B)) ls' lv' := by
  have hn2 := (shape_pos h12 lv _ hsh).2 hlv
  have hleft : ∀ A' p, A = A' ++ [p] → (if A.length = 0 then none else (A ++ l :: B)[A.length - 1]?) = some p := by
    intro A' p hA
    rw [if_neg (by rw [hA]; simp)]
    conv_lhs => rw [hA]
    exact get_mid_pred (by simp)
  have hright : (A ++ l :: B)[A.length + 1]? = B.head? := get_mid_succ rfl
  have htake : (A ++ l :: B).take A.length = A := take_mid
  have hdrop1 : (A ++ l :: B).drop (A.length + 1) = B := drop_mid
  -- a merge with the left neighbour
  have mleft : ∀ A' p, A = A' ++ [p] → p.seg.uniq ≤ mx / 2 →
      p.locked = false ∧
      ∃ lv', lift (removeUp mx lv (leafBounds ((A ++ l :: B).take (A.length - 1) ++ ⟨merge' p.seg s, false⟩ :: (A ++ l :: B).drop (A.length + 1))) A.length) = .ok lv' ∧
        Fixed mx (fl (A ++ ⟨s, false⟩ :: B)) ((A ++ l :: B).take (A.length - 1) ++ ⟨merge' p.seg s, false⟩ :: (A ++ l :: B).drop (A.length + 1)) lv' := by
    intro A' p hA hp
    have hLp : LInv (A' ++ [p, ⟨s, false⟩] ++ B) := by rw [hA] at hL; simpa using hL
    obtain ⟨q1, q2, q3, q4, q5, q6⟩ := pair_lt hLp
    obtain ⟨u1, u2, u3⟩ := merge_right q3 q4 q2 q1 q5 q6
    have hpsz := hsz p (Or.inl (by rw [hA]; simp))
    have ht : (A ++ l :: B).take (A.length - 1) = A' := by
      rw [show A.length - 1 = A'.length by rw [hA]; simp, hA, List.append_assoc]
      exact take_mid
    rw [ht, hdrop1]
    obtain ⟨w1, w2⟩ := hLp.swap (M' := [⟨merge' p.seg s, false⟩]) (by
      intro q hq
      rw [List.mem_singleton.mp hq]
      refine ⟨u1, rfl, ?_⟩
      show flat (merge' p.seg s).blocks ≠ []
      rw [u2]
      exact fun hc => (hLp.ne p (by simp)) (List.append_eq_nil_iff.mp hc).1) (by
      rw [fl_cons, fl_cons, fl_cons, fl_nil, List.append_nil, List.append_nil]
      exact u2)
    have w1' : LInv (A' ++ (⟨merge' p.seg s, false⟩ : Leaf K) :: B) := by simpa using w1
    have w2' : fl (A' ++ (⟨merge' p.seg s, false⟩ : Leaf K) :: B) = fl (A ++ ⟨s, false⟩ :: B) := by rw [hA]; simpa using w2
    refine ⟨hLp.open' p (by simp), ?_⟩
    obtain ⟨lv', r1, r2⟩ := removeUp_ok h12 lv (leafBounds (A' ++ (⟨merge' p.seg s, false⟩ : Leaf K) :: B)) A.length _ hlv hsh
      (by unfold leafBounds; rw [hA]; simp; omega) (bounds_sorted w1') (by simp)
    refine ⟨lv', by rw [r1]; rfl, w1', w2', ?_, ?_⟩
    · intro q hq
      rcases List.mem_append.mp hq with hq | hq
      · have := hsz q (Or.inl (by rw [hA]; exact List.mem_append_left _ hq))
        exact ⟨this.1, fun _ => this.2⟩
      · rcases List.mem_cons.mp hq with rfl | hq
        · refine ⟨?_, fun _ => ?_⟩
          · show (merge' p.seg s).uniq ≤ mx
            rw [u3]; simp only at *; omega
          · show mx / 4 ≤ (merge' p.seg s).uniq
            rw [u3]; omega
        · have := hsz q (Or.inr hq)
          exact ⟨this.1, fun _ => this.2⟩
    · have : (A ++ l :: B).length - 1 = (A' ++ (⟨merge' p.seg s, false⟩ : Leaf K) :: B).length := by rw [hA]; simp
      rw [← this]; exact r2
  cases B with
  | cons r B' =>
    have hLr : LInv (A ++ [⟨s, false⟩, r] ++ B') := by simpa using hL
    obtain ⟨q1, q2, q3, q4, q5, q6⟩ := pair_lt hLr
    have hrsz := hsz r (Or.inr (List.mem_cons_self ..))
    have hro : r.locked = false := hLr.open' r (by simp)
    have hdrop2 : (A ++ l :: r :: B').drop (A.length + 2) = B' := by
      rw [show A ++ l :: r :: B' = (A ++ [l, r]) ++ B' by simp]
      rw [List.drop_append_of_le_length (by simp)]
      simp
    have bright : mx / 2 < r.seg.uniq → ∃ q, lift (balanceLeaf s r.seg) = .ok q ∧
        Fixed mx (fl (A ++ ⟨s, false⟩ :: r :: B')) (A ++ ⟨q.1, false⟩ :: ⟨q.2, false⟩ :: B') lv := by
      intro hr
      obtain ⟨s', o', b1, b2, b3, b4, b5, b6⟩ := balance_right q3 q4 q2 q1 q5 q6 (show s.uniq ≤ r.seg.uniq by omega)
      refine ⟨(s', o'), ?_, ?_⟩
      · unfold balanceLeaf
        rw [if_neg (by omega), b1]; rfl
      · simp only at b4 b5 b6
        obtain ⟨w1, w2⟩ := hLr.swap (M' := [⟨s', false⟩, ⟨o', false⟩]) (by
          intro q hq
          rcases List.mem_cons.mp hq with rfl | hq
          · exact ⟨b2, rfl, flat_ne b2 (show 0 < s'.uniq by omega)⟩
          · rw [List.mem_singleton.mp hq]
            exact ⟨b3, rfl, flat_ne b3 (show 0 < o'.uniq by omega)⟩) (by
          simp only [fl_cons, fl_nil, List.append_nil]
          exact b4)
        refine ⟨by simpa using w1, by simpa using w2, ?_, ?_⟩
        · intro q hq
          rcases List.mem_append.mp hq with hq | hq
          · have := hsz q (Or.inl hq)
            exact ⟨this.1, fun _ => this.2⟩
          · rcases List.mem_cons.mp hq with rfl | hq
            · refine ⟨?_, fun _ => ?_⟩
              · show s'.uniq ≤ mx; omega
              · show mx / 4 ≤ s'.uniq; omega
            · rcases List.mem_cons.mp hq with rfl | hq
              · refine ⟨?_, fun _ => ?_⟩
                · show o'.uniq ≤ mx; omega
                · show mx / 4 ≤ o'.uniq; omega
              · have := hsz q (Or.inr (List.mem_cons_of_mem _ hq))
                exact ⟨this.1, fun _ => this.2⟩
        · have : (A ++ l :: r :: B').length = (A ++ (⟨s', false⟩ : Leaf K) :: ⟨o', false⟩ :: B').length := by simp
          rw [← this]; exact hsh
    unfold fixLeaf
    simp only [hright, List.head?_cons]
    by_cases hr : r.seg.uniq ≤ mx / 2
    · -- the right neighbour takes the leaf
      rw [if_pos hr, hro, if_neg (by simp), htake, hdrop2]
      obtain ⟨u1, u2, u3⟩ := merge_left q4 q3 q2 q1 q6 q5
      obtain ⟨w1, w2⟩ := hLr.swap (M' := [⟨merge' r.seg s, false⟩]) (by
        intro q hq
        rw [List.mem_singleton.mp hq]
        refine ⟨u1, rfl, ?_⟩
        show flat (merge' r.seg s).blocks ≠ []
        rw [u2]
        exact fun hc => (hLr.ne r (by simp)) (List.append_eq_nil_iff.mp hc).2) (by
        rw [fl_cons, fl_cons, fl_cons, fl_nil, List.append_nil, List.append_nil]
        exact u2)
      have w1' : LInv (A ++ (⟨merge' r.seg s, false⟩ : Leaf K) :: B') := by simpa using w1
      have w2' : fl (A ++ (⟨merge' r.seg s, false⟩ : Leaf K) :: B') = fl (A ++ ⟨s, false⟩ :: r :: B') := by simpa using w2
      obtain ⟨lv', r1, r2⟩ := removeUp_ok h12 lv (leafBounds (A ++ (⟨merge' r.seg s, false⟩ : Leaf K) :: B')) A.length _ hlv hsh
        (by unfold leafBounds; simp; omega) (bounds_sorted w1') (by simp)
      rw [r1]
      refine ⟨_, lv', rfl, w1', w2', ?_, ?_⟩
      · intro q hq
        rcases List.mem_append.mp hq with hq | hq
        · have := hsz q (Or.inl hq)
          exact ⟨this.1, fun _ => this.2⟩
        · rcases List.mem_cons.mp hq with rfl | hq
          · refine ⟨?_, fun _ => ?_⟩
            · show (merge' r.seg s).uniq ≤ mx
              rw [u3]; simp only at *; omega
            · show mx / 4 ≤ (merge' r.seg s).uniq
              rw [u3]; omega
          · have := hsz q (Or.inr (List.mem_cons_of_mem _ hq))
            exact ⟨this.1, fun _ => this.2⟩
      · have : (A ++ l :: r :: B').length - 1 = (A ++ (⟨merge' r.seg s, false⟩ : Leaf K) :: B').length := by simp
        rw [← this]; exact r2
    · rw [if_neg hr]
      obtain ⟨q, z1, z2⟩ := bright (by omega)
      rcases last_cases A with hA | ⟨A', p, hA⟩
      · rw [if_pos (show A.length = 0 by rw [hA]; rfl)]
        simp only [hro, htake, hdrop2, z1]
        exact ⟨_, _, rfl, z2⟩
      · rw [hleft A' p hA]
        have hpc : (if byItems = true then p.seg.count else p.seg.uniq) = p.seg.uniq := by
          have hp := hL.seg p (by rw [hA]; simp)
          split
          · rw [hp.cnt, hp.unq]
          · rfl
        simp only [hpc]
        by_cases hp : p.seg.uniq ≤ mx / 2
        · obtain ⟨o1, lv', o2, o3⟩ := mleft A' p hA hp
          rw [if_pos hp, o1, if_neg (by simp), o2]
          exact ⟨_, lv', rfl, o3⟩
        · rw [if_neg hp]
          simp only [hro, htake, hdrop2, z1]
          exact ⟨_, _, rfl, z2⟩
  | nil =>
    unfold fixLeaf
    simp only [hright, List.head?_nil]
    rcases last_cases A with hA | ⟨A', p, hA⟩
    · rw [hA] at hn2; simp at hn2
    · rw [hleft A' p hA]
      have hpu := hL.seg p (by rw [hA]; simp)
      have hpo := hL.open' p (by rw [hA]; simp)
      have hpc : (if byItems = true then p.seg.count else p.seg.uniq) = p.seg.uniq := by
        split
        · rw [hpu.cnt, hpu.unq]
        · rfl
      simp only [hpc]
      by_cases hp : p.seg.uniq ≤ mx / 2
      · obtain ⟨o1, lv', o2, o3⟩ := mleft A' p hA hp
        rw [if_pos hp, o1, if_neg (by simp), o2]
        exact ⟨_, lv', rfl, o3⟩
      · rw [if_neg hp, hpo, if_neg (by simp)]
        have hLp : LInv (A' ++ [p, ⟨s, false⟩] ++ []) := by rw [hA] at hL; simpa using hL
        obtain ⟨q1, q2, q3, q4, q5, q6⟩ := pair_lt hLp
        have hpsz := hsz p (Or.inl (by rw [hA]; simp))
        obtain ⟨s', o', b1, b2, b3, b4, b5, b6⟩ := balance_left q4 q3 q2 q1 q6 q5 (show s.uniq ≤ p.seg.uniq by omega)
        simp only at b1 b4 b5 b6
        have hb : lift (balanceLeaf s p.seg) = .ok (s', o') := by
          unfold balanceLeaf
          rw [if_neg (by omega), b1]; rfl
        rw [hb]
        have ht : (A ++ [l]).take (A.length - 1) = A' := by
          rw [show A.length - 1 = A'.length by rw [hA]; simp, hA, List.append_assoc]
          exact take_mid
        rw [ht, hdrop1]
        refine ⟨_, _, rfl, ?_⟩
        obtain ⟨w1, w2⟩ := hLp.swap (M' := [⟨o', false⟩, ⟨s', false⟩]) (by
          intro q hq
          rcases List.mem_cons.mp hq with rfl | hq
          · exact ⟨b3, rfl, flat_ne b3 (show 0 < o'.uniq by omega)⟩
          · rw [List.mem_singleton.mp hq]
            exact ⟨b2, rfl, flat_ne b2 (show 0 < s'.uniq by omega)⟩) (by
          simp only [fl_cons, fl_nil, List.append_nil]
          exact b4)
        refine ⟨by simpa using w1, by rw [hA]; simpa using w2, ?_, ?_⟩
        · intro q hq
          rcases List.mem_append.mp hq with hq | hq
          · have := hsz q (Or.inl (by rw [hA]; exact List.mem_append_left _ hq))
            exact ⟨this.1, fun _ => this.2⟩
          · rcases List.mem_cons.mp hq with rfl | hq
            · refine ⟨?_, fun _ => ?_⟩
              · show o'.uniq ≤ mx; omega
              · show mx / 4 ≤ o'.uniq; omega
            · rw [List.mem_singleton.mp hq]
              refine ⟨?_, fun _ => ?_⟩
              · show s'.uniq ≤ mx; omega
              · show mx / 4 ≤ s'.uniq; omega
        · have : (A ++ [l]).length = (A' ++ [(⟨o', false⟩ : Leaf K), ⟨s', false⟩]).length := by rw [hA]; simp
          rw [← this]; exact hsh

theorem strict_filter {A M B : List (K × Bytes)} {p : K × Bytes → Bool} (h : Strict (A ++ M ++ B)) : Strict (A ++ M.filter p ++ B) :=
  h.sublist (List.Sublist.append (List.Sublist.append (List.Sublist.refl A) List.filter_sublist) (List.Sublist.refl B))

theorem filter_out {l : List (K × Bytes)} {k : K} (h : ∀ e ∈ l, e.1 ≠ k) : l.filter (·.1 ≠ k) = l :=
  List.filter_eq_self.mpr fun e he => decide_eq_true (h e he)

theorem filter_one_length {l : List (K × Bytes)} (h : Strict l) {e : K × Bytes} (he : e ∈ l) :
    (l.filter (·.1 ≠ e.1)).length + 1 = l.length := by
  obtain ⟨a, c, rfl⟩ := List.append_of_mem he
  obtain ⟨h1, h2, h3⟩ := Strict.append.mp h
  have h4 := List.pairwise_cons.mp h2
  rw [List.filter_append, List.filter_cons, if_neg (by simp),
    filter_out (fun f hf => ne_of_lt (h3 f hf e (List.mem_cons_self ..))), filter_out (fun f hf => (ne_of_lt (h4.1 f hf)).symm)]
  simp only [List.length_append, List.length_cons]
  omega

theorem filter_item {l : List (K × Bytes)} (h : Strict l) {k : K} {x : Bytes} (he : (k, x) ∈ l) :
    l.filter (· ≠ (k, x)) = l.filter (·.1 ≠ k) := by
  apply List.filter_congr
  intro f hf
  by_cases hk : f.1 = k
  · have := h.one hf he hk
    simp [this]
  · have : f ≠ (k, x) := fun hc => hk (by rw [hc])
    simp [hk, this]

/-- What the leaf operation does when the key is there. -/
def OpOk (k : K) (op : Seg K → Option (Seg K × Bool)) (s : Seg K) : Prop :=
  ∃ s', op s = some (s', true) ∧ UInv s' ∧ flat s'.blocks = (flat s.blocks).filter (·.1 ≠ k)

theorem removeWith_ok {mx : Nat} (h12 : 12 ≤ mx) {byItems : Bool} {t : Tree K} (h : TInv mx t) {e : K × Bytes} (he : e ∈ fl t.leaves)
    {op : Seg K → Option (Seg K × Bool)} {d : Seg K → Nat}
    (hop : ∀ l ∈ t.leaves, e ∈ lflat l → OpOk e.1 op l.seg ∧ d l.seg = 1) :
    ∃ t', removeWith mx byItems t e.1 op d = .ok (t', true) ∧ TInv mx t' ∧ fl t'.leaves = (fl t.leaves).filter (·.1 ≠ e.1) := by
  obtain ⟨ls, lv, cnt⟩ := t
  have hcnt : cnt = (fl ls).length := h.count
  simp only at he hop
  cases ls with
  | nil => cases he
  | cons l0 ls0 =>
    obtain ⟨A, l, B, hAB, hdes, hA, hB⟩ := find_ok h12 h (List.cons_ne_nil l0 ls0) e.1
    have hL := h.leaf
    simp only at hAB hL
    rw [hAB] at hL hcnt he hop
    have hL3 : LInv (A ++ [l] ++ B) := by simpa using hL
    obtain ⟨hA1, hB1, _⟩ := hL3.append
    obtain ⟨hAi, _, _⟩ := hA1.append
    have hlm : l ∈ A ++ l :: B := by simp
    have hul := hL.seg l hlm
    have hlo := hL.open' l hlm
    have hsz := h.size l (by simp only; rw [hAB]; exact hlm)
    have hfl : fl (A ++ l :: B) = fl A ++ lflat l ++ fl B := by rw [fl_append, fl_cons, List.append_assoc]
    have hstr := hL.strict
    have hel : e ∈ lflat l := by
      rw [hfl] at he
      rcases List.mem_append.mp he with he | he
      · rcases List.mem_append.mp he with he | he
        · exact absurd (hA e he) (lt_irrefl _)
        · exact he
      · exact absurd (hB e he) (lt_irrefl _)
    have hone := filter_one_length hstr he
    have hfil : (fl (A ++ l :: B)).filter (·.1 ≠ e.1) = fl A ++ (lflat l).filter (·.1 ≠ e.1) ++ fl B := by
      rw [hfl, List.filter_append, List.filter_append, filter_out (fun f hf => ne_of_lt (hA f hf)),
        filter_out (fun f hf => (ne_of_lt (hB f hf)).symm)]
    have hsh : Shape mx lv (A ++ l :: B).length := by
      rcases h.shape with ⟨hc, _⟩ | hs
      · simp at hc
      · simp only at hs; rwa [hAB] at hs
    obtain ⟨⟨s', g1, g2, g3⟩, hd⟩ := hop l hlm hel
    have hls := filter_one_length (useg_strict hul) hel
    rw [← g3] at hls
    have hu' : s'.uniq + 1 = l.seg.uniq := by rw [g2.unq, hul.unq]; exact hls
    have hfl' : fl (A ++ (⟨s', false⟩ : Leaf K) :: B) = (fl (A ++ l :: B)).filter (·.1 ≠ e.1) := by
      rw [hfil, fl_append, fl_cons, ← g3, List.append_assoc]
    have hnew : flat s'.blocks ≠ [] → LInv (A ++ (⟨s', false⟩ : Leaf K) :: B) := by
      intro hne
      have := LInv.glue (M := [⟨s', false⟩]) hAi hB1 (by
        intro q hq; rw [List.mem_singleton.mp hq]; exact ⟨g2, rfl, hne⟩) (by
        have h1 : fl [(⟨s', false⟩ : Leaf K)] = (lflat l).filter (·.1 ≠ e.1) := by rw [fl_cons, fl_nil, List.append_nil]; exact g3
        rw [h1]
        rw [hfl] at hstr
        exact strict_filter hstr) (by
        intro f hf
        rw [show fl [(⟨s', false⟩ : Leaf K)] = flat s'.blocks by rw [fl_cons, fl_nil, List.append_nil]] at hf
        exact g2.uk.top f hf)
      simpa using this
    have hlen' : (fl (A ++ (⟨s', false⟩ : Leaf K) :: B)).length = cnt - 1 := by rw [hfl']; omega
    cases lv with
    | nil =>
      have h1 : (A ++ l :: B).length = 1 := hsh
      rw [List.length_append, List.length_cons] at h1
      have hA0 : A = [] := List.length_eq_zero_iff.mp (by omega)
      have hB0 : B = [] := List.length_eq_zero_iff.mp (by omega)
      subst hA0 hB0
      rw [List.nil_append] at hAB
      obtain ⟨rfl, rfl⟩ := List.cons.inj hAB
      obtain ⟨sg, lk⟩ := l0
      have hlk : lk = false := hlo
      subst hlk
      have hun : removeWith mx byItems (⟨[⟨sg, false⟩], [], cnt⟩ : Tree K) e.1 op d =
          (lift (op sg)).bind fun r =>
            if r.1.count = 0 then .ok (⟨[], [], cnt - (if r.2 then d sg else 0)⟩, r.2)
            else .ok (⟨[⟨r.1, false⟩], [], cnt - (if r.2 then d sg else 0)⟩, r.2) := rfl
      rw [hun]
      simp only at g1 hd
      rw [g1]
      show ∃ t', (if s'.count = 0 then Res.ok ((⟨[], [], cnt - d sg⟩ : Tree K), true)
        else .ok (⟨[⟨s', false⟩], [], cnt - d sg⟩, true)) = .ok (t', true) ∧ _
      rw [hd]
      by_cases h0 : s'.count = 0
      · rw [if_pos h0]
        rw [g2.cnt] at h0
        have hnil : fl [(⟨s', false⟩ : Leaf K)] = [] := by
          rw [fl_cons, fl_nil, List.append_nil]; exact List.length_eq_zero_iff.mp h0
        rw [List.nil_append, hnil] at hfl' hlen'
        refine ⟨_, rfl, ⟨⟨?_, ?_, ?_, List.Pairwise.nil, ?_⟩, ?_, Or.inl ⟨rfl, rfl⟩, ?_⟩, ?_⟩
        · intro l hl; cases hl
        · intro l hl; cases hl
        · intro l hl; cases hl
        · intro l hl; cases hl
        · intro l hl; cases hl
        · exact hlen'.symm
        · exact hfl'
      · rw [if_neg h0]
        have hne : flat s'.blocks ≠ [] := by
          intro hc; rw [g2.cnt, hc] at h0; exact h0 rfl
        refine ⟨_, rfl, ⟨hnew hne, ?_, Or.inr rfl, hlen'.symm⟩, hfl'⟩
        intro q hq
        rw [List.mem_singleton.mp hq]
        refine ⟨?_, fun hc => absurd rfl hc⟩
        have := hsz.1
        show s'.uniq ≤ mx
        omega
    | cons cs up =>
      have hdes' : descend e.1 (cs :: up) (leafMins (⟨l0 :: ls0, cs :: up, cnt⟩ : Tree K)) = A.length := hdes
      have hget : (l0 :: ls0)[A.length]? = some l := by rw [hAB]; exact get_mid
      have hci : Seg.containsIndex l.seg e.1 = true := (containsIndex_iff hul.pg e.1).mpr ⟨e.2, hel⟩
      have hun : removeWith mx byItems (⟨l0 :: ls0, cs :: up, cnt⟩ : Tree K) e.1 op d =
          (if l.locked then .diverges
          else if !Seg.containsIndex l.seg e.1 then .ok (⟨(l0 :: ls0).set A.length ⟨l.seg, true⟩, cs :: up, cnt⟩, false)
          else
            (lift (op l.seg)).bind fun r =>
              let n := cnt - (if r.2 then d l.seg else 0)
              if mx / 4 < l.seg.uniq ∨ r.2 = false then .ok (⟨(l0 :: ls0).set A.length ⟨r.1, false⟩, cs :: up, n⟩, r.2)
              else (fixLeaf mx byItems (l0 :: ls0) (cs :: up) A.length r.1).bind fun q => .ok (⟨q.1, q.2, n⟩, true)) := by
        unfold removeWith
        simp only [hdes', hget]
      rw [hun, hlo, if_neg (by simp), hci, if_neg (by simp), g1, hAB]
      show ∃ t', (if mx / 4 < l.seg.uniq ∨ true = false then Res.ok ((⟨(A ++ l :: B).set A.length ⟨s', false⟩, cs :: up, cnt - d l.seg⟩ : Tree K), true)
        else (fixLeaf mx byItems (A ++ l :: B) (cs :: up) A.length s').bind fun q => .ok (⟨q.1, q.2, cnt - d l.seg⟩, true)) = .ok (t', true) ∧ _
      rw [hd]
      have h4 := hsz.2 (List.cons_ne_nil _ _)
      have hne : flat s'.blocks ≠ [] := flat_ne g2 (by omega)
      have hother : ∀ q, q ∈ A ∨ q ∈ B → q.seg.uniq ≤ mx ∧ mx / 4 ≤ q.seg.uniq := by
        intro q hq
        have := h.size q (by
          simp only; rw [hAB]
          rcases hq with hq | hq
          · exact List.mem_append_left _ hq
          · exact List.mem_append_right _ (List.mem_cons_of_mem _ hq))
        exact ⟨this.1, this.2 (List.cons_ne_nil _ _)⟩
      by_cases hsafe : mx / 4 < l.seg.uniq
      · rw [if_pos (Or.inl hsafe), set_at]
        refine ⟨_, rfl, ⟨hnew hne, ?_, Or.inr ?_, hlen'.symm⟩, hfl'⟩
        · intro q hq
          rcases List.mem_append.mp hq with hq | hq
          · exact ⟨(hother q (Or.inl hq)).1, fun _ => (hother q (Or.inl hq)).2⟩
          · rcases List.mem_cons.mp hq with rfl | hq
            · have := hsz.1
              refine ⟨?_, fun _ => ?_⟩
              · show s'.uniq ≤ mx; omega
              · show mx / 4 ≤ s'.uniq; omega
            · exact ⟨(hother q (Or.inr hq)).1, fun _ => (hother q (Or.inr hq)).2⟩
        · have : (A ++ (⟨s', false⟩ : Leaf K) :: B).length = (A ++ l :: B).length := by simp
          simp only
          rw [this]; exact hsh
      · rw [if_neg (by simp [hsafe])]
        obtain ⟨ls', lv', f1, f2⟩ := fixLeaf_ok (byItems := byItems) (l := l) h12 (hnew hne) hother (by omega) (List.cons_ne_nil cs up) hsh
        rw [f1]
        refine ⟨_, rfl, ⟨f2.leaf, f2.size, Or.inr f2.shape, ?_⟩, ?_⟩
        · show cnt - 1 = (fl ls').length
          rw [f2.same, hlen']
        · show fl ls' = _
          rw [f2.same, hfl']

theorem itemCount_one {s : Seg K} (h : UInv s) {k : K} {x : Bytes} (hx : (k, x) ∈ flat s.blocks) : Seg.itemCount s k = 1 := by
  rw [itemCount_eq h.pg]
  have := filter_one_length (useg_strict h) hx
  have h2 := filter_split_length (flat s.blocks) k
  simp only at *
  omega

/-- `remove` of an entry that is there. -/
theorem remove_item_ok {mx : Nat} (h12 : 12 ≤ mx) {t : Tree K} (h : TInv mx t) {k : K} {x : Bytes} (he : (k, x) ∈ fl t.leaves) :
    ∃ t', remove mx t k x = .ok (t', true) ∧ TInv mx t' ∧ fl t'.leaves = (fl t.leaves).filter (· ≠ (k, x)) := by
  obtain ⟨t', e1, e2, e3⟩ := removeWith_ok (byItems := true) h12 h he (op := fun s => Seg.remove s k x) (d := fun _ => 1) (by
    intro l hl hel
    refine ⟨?_, rfl⟩
    have hu := h.leaf.seg l hl
    obtain ⟨s', q1, q2, q3⟩ := remove_ok hu.sinv hel (one_of_alone hu.pg (itemCount_one hu hel))
    refine ⟨s', q1, q2.uinv ?_, ?_⟩
    · rw [q3]
      exact ⟨hu.uk.nodup.sublist (List.filter_sublist.map _), fun e he => hu.uk.top e (List.mem_of_mem_filter he)⟩
    · rw [q3]; exact filter_item (useg_strict hu) hel)
  exact ⟨t', e1, e2, by rw [e3]; exact (filter_item h.leaf.strict he).symm⟩

/-- `remove_index` of a key that is there. -/
theorem remove_index_ok {mx : Nat} (h12 : 12 ≤ mx) {t : Tree K} (h : TInv mx t) {k : K} {x : Bytes} (he : (k, x) ∈ fl t.leaves) :
    ∃ t', removeIndex mx t k = .ok (t', true) ∧ TInv mx t' ∧ fl t'.leaves = (fl t.leaves).filter (·.1 ≠ k) := by
  refine removeWith_ok (byItems := false) h12 h he (op := fun s => Seg.removeIndex s k) (d := fun s => Seg.itemCount s k) ?_
  intro l hl hel
  have hu := h.leaf.seg l hl
  obtain ⟨s', q1, q2, q3⟩ := removeIndex_present hu.sinv (mem_keys.mpr ⟨x, hel⟩)
  refine ⟨⟨s', q1, q2.uinv ?_, q3⟩, itemCount_one hu hel⟩
  rw [q3]
  exact ⟨hu.uk.nodup.sublist (List.filter_sublist.map _), fun e he => hu.uk.top e (List.mem_of_mem_filter he)⟩

end Verif.BTree
