import Verif.BTree.Steps2
/-!
Helper lemmas: what a tree answers.
-/
namespace Verif.BTree
open Verif.Seg
set_option linter.unusedSectionVars false
variable {K : Type} [LinearOrder K] [BoundedOrder K]

/-- What the questions need: leaves in key order below proper inner nodes.  A key may have several entries. -/
structure RInv (mx : Nat) (t : Tree K) : Prop where
  pg : ∀ l ∈ t.leaves, Pg l.seg.blocks
  open' : ∀ l ∈ t.leaves, l.locked = false
  ne : ∀ l ∈ t.leaves, lflat l ≠ []
  order : t.leaves.Pairwise (fun a b => ∀ e ∈ lflat a, ∀ f ∈ lflat b, e.1 < f.1)
  shape : (t.leaves = [] ∧ t.levels = []) ∨ Shape mx t.levels t.leaves.length

theorem TInv.rinv {mx : Nat} {t : Tree K} (h : TInv mx t) : RInv mx t := by
  refine ⟨fun l hl => (h.leaf.seg l hl).pg, h.leaf.open', h.leaf.ne, ?_, h.shape⟩
  have hs := h.leaf.strict
  generalize t.leaves = ls at hs
  induction ls with
  | nil => exact List.Pairwise.nil
  | cons l ls ih =>
    rw [fl_cons] at hs
    obtain ⟨_, h2, h3⟩ := Strict.append.mp hs
    refine List.pairwise_cons.mpr ⟨?_, ih h2⟩
    intro r hr e he f hf
    exact h3 e he f (mem_fl.mpr ⟨r, hr, hf⟩)

theorem sorted_fl {ls : List (Leaf K)} (hp : ∀ l ∈ ls, Pg l.seg.blocks)
    (ho : ls.Pairwise (fun a b => ∀ e ∈ lflat a, ∀ f ∈ lflat b, e.1 < f.1)) : ((fl ls).map Prod.fst).Pairwise (· ≤ ·) := by
  induction ls with
  | nil => exact List.Pairwise.nil
  | cons l ls ih =>
    have h2 := List.pairwise_cons.mp ho
    rw [fl_cons, sorted_append]
    refine ⟨(hp l (List.mem_cons_self ..)).sorted, ih (fun q hq => hp q (List.mem_cons_of_mem _ hq)) h2.2, ?_⟩
    intro e he f hf
    obtain ⟨r, hr, hfr⟩ := mem_fl.mp hf
    exact le_of_lt (h2.1 r hr e he f hfr)

theorem RInv.sorted {mx : Nat} {t : Tree K} (h : RInv mx t) : ((fl t.leaves).map Prod.fst).Pairwise (· ≤ ·) := sorted_fl h.pg h.order

/-- The leaf found for a key: all entries before are below the key, all entries after above. -/
theorem RInv.find {mx : Nat} (h12 : 12 ≤ mx) {t : Tree K} (h : RInv mx t) (hne : t.leaves ≠ []) (k : K) :
    ∃ A l B, t.leaves = A ++ l :: B ∧ descend k t.levels (leafMins t) = A.length ∧
      (∀ e ∈ fl A, e.1 < k) ∧ ∀ e ∈ fl B, k < e.1 := by
  have hsh : Shape mx t.levels t.leaves.length := by
    rcases h.shape with ⟨hc, _⟩ | hs
    · exact absurd hc hne
    · exact hs
  have hms : (leafMins t).Pairwise (· < ·) := by
    unfold leafMins
    rw [List.pairwise_map]
    refine List.Pairwise.imp_of_mem ?_ h.order
    intro a b ha hb hab
    obtain ⟨⟨f, hf, hfk⟩, _⟩ := smin_spec (h.pg a ha) (h.ne a ha)
    obtain ⟨⟨g, hg, hgk⟩, _⟩ := smin_spec (h.pg b hb) (h.ne b hb)
    rw [← hfk, ← hgk]
    exact hab f hf g hg
  have hlen : (leafMins t).length = t.leaves.length := by unfold leafMins; rw [List.length_map]
  have hd := descend_eq (k := k) h12 t.levels (leafMins t) (by rw [hlen]; exact hsh) hms
  obtain ⟨X, Y, hXY, hX, hXk, hYk⟩ := cntLe_split hms k
  have hpos : 0 < t.leaves.length := List.length_pos_iff.mpr hne
  have hlt : descend k t.levels (leafMins t) < t.leaves.length := by
    have : X.length ≤ t.leaves.length := by rw [← hlen, hXY]; simp
    omega
  refine ⟨t.leaves.take (descend k t.levels (leafMins t)), t.leaves[descend k t.levels (leafMins t)],
    t.leaves.drop (descend k t.levels (leafMins t) + 1), ?_, ?_, ?_, ?_⟩
  · rw [← List.drop_eq_getElem_cons hlt, List.take_append_drop]
  · rw [List.length_take]; omega
  all_goals
    generalize hdd : descend k t.levels (leafMins t) = d at *
  · intro e he
    have hsplit : t.leaves = t.leaves.take d ++ t.leaves[d] :: t.leaves.drop (d + 1) := by
      rw [← List.drop_eq_getElem_cons hlt, List.take_append_drop]
    have ho := h.order
    rw [hsplit] at ho
    have h3 := (List.pairwise_append.mp ho).2.2
    have hm : t.leaves[d] ∈ t.leaves := List.getElem_mem hlt
    obtain ⟨⟨f, hf, hfk⟩, _⟩ := smin_spec (h.pg _ hm) (h.ne _ hm)
    obtain ⟨q, hq, heq⟩ := mem_fl.mp he
    have h4 := h3 q hq t.leaves[d] (List.mem_cons_self ..) e heq f hf
    refine lt_of_lt_of_le h4 ?_
    rw [hfk]
    have hd0 : 0 < d := by
      rcases Nat.eq_zero_or_pos d with h0 | h0
      · subst h0
        rw [List.take_zero] at he; cases he
      · exact h0
    have hdX : d < X.length := by omega
    have h5 : (leafMins t)[d]? = some (smin t.leaves[d].seg) := by
      unfold leafMins; rw [List.getElem?_map, List.getElem?_eq_getElem hlt]; rfl
    have h6 : smin t.leaves[d].seg = X[d] := by
      rw [hXY, List.getElem?_append_left hdX, List.getElem?_eq_getElem hdX] at h5
      exact (Option.some.inj h5).symm
    rw [h6]
    exact hXk _ (List.getElem_mem hdX)
  · intro e he
    obtain ⟨l, hl, hel⟩ := mem_fl.mp he
    obtain ⟨_, hge⟩ := smin_spec (h.pg l (List.mem_of_mem_drop hl)) (h.ne l (List.mem_of_mem_drop hl))
    refine lt_of_lt_of_le ?_ (hge e hel)
    refine hYk _ ?_
    have hmm : smin l.seg ∈ (leafMins t).drop (d + 1) := by
      unfold leafMins
      rw [← List.map_drop]
      exact List.mem_map.mpr ⟨l, hl, rfl⟩
    rw [hXY] at hmm
    have : X.length ≤ d + 1 := by omega
    rw [List.drop_append, List.drop_eq_nil_of_le this, List.nil_append] at hmm
    exact List.mem_of_mem_drop hmm

/-- The leaf found holds all entries of the key. -/
theorem RInv.findLeaf {mx : Nat} (h12 : 12 ≤ mx) {t : Tree K} (h : RInv mx t) (k : K) :
    (t.leaves = [] ∧ findLeaf t k = .ok none) ∨
    ∃ s, findLeaf t k = .ok (some s) ∧ Pg s.blocks ∧ (fl t.leaves).filter (·.1 = k) = (flat s.blocks).filter (·.1 = k) := by
  by_cases hne : t.leaves = []
  · refine Or.inl ⟨hne, ?_⟩
    unfold BTree.findLeaf
    rw [hne]; rfl
  · obtain ⟨A, l, B, hAB, hd, hA, hB⟩ := h.find h12 hne k
    have hl : l ∈ t.leaves := by rw [hAB]; simp
    refine Or.inr ⟨l.seg, ?_, h.pg l hl, ?_⟩
    · unfold BTree.findLeaf
      rw [hd, hAB, get_mid]
      show (if l.locked = true then _ else _) = _
      rw [h.open' l hl]; rfl
    · rw [hAB, fl_append, fl_cons, List.filter_append, List.filter_append]
      have h1 : (fl A).filter (fun e => decide (e.1 = k)) = [] :=
        List.filter_eq_nil_iff.mpr fun e he hc => ne_of_lt (hA e he) (of_decide_eq_true hc)
      have h2 : (fl B).filter (fun e => decide (e.1 = k)) = [] :=
        List.filter_eq_nil_iff.mpr fun e he hc => ne_of_lt (hB e he) (of_decide_eq_true hc).symm
      rw [h1, h2]; simp

theorem mem_of_filter_eq {l l' : List (K × Bytes)} {k : K} {x : Bytes} (h : l.filter (·.1 = k) = l'.filter (·.1 = k)) :
    (k, x) ∈ l ↔ (k, x) ∈ l' := by
  have : ∀ m : List (K × Bytes), (k, x) ∈ m ↔ (k, x) ∈ m.filter (·.1 = k) := by intro m; simp
  rw [this l, this l', h]

theorem RInv.contains {mx : Nat} (h12 : 12 ≤ mx) {t : Tree K} (h : RInv mx t) (k : K) (x : Bytes) :
    BTree.contains t k x = .ok (decide ((k, x) ∈ fl t.leaves)) := by
  unfold BTree.contains
  rcases h.findLeaf h12 k with ⟨h1, h2⟩ | ⟨s, h1, h2, h3⟩
  · rw [h2, h1]; rfl
  · rw [h1]
    show Res.ok (Seg.contains s k x) = _
    congr 1
    rw [Bool.eq_iff_iff, contains_iff' h2, decide_eq_true_iff]
    exact (mem_of_filter_eq h3).symm

theorem RInv.containsIndex {mx : Nat} (h12 : 12 ≤ mx) {t : Tree K} (h : RInv mx t) (k : K) :
    BTree.containsIndex t k = .ok (decide (k ∈ (fl t.leaves).map Prod.fst)) := by
  unfold BTree.containsIndex
  rcases h.findLeaf h12 k with ⟨h1, h2⟩ | ⟨s, h1, h2, h3⟩
  · rw [h2, h1]; rfl
  · rw [h1]
    show Res.ok (Seg.containsIndex s k) = _
    congr 1
    rw [Bool.eq_iff_iff, containsIndex_iff h2, decide_eq_true_iff, mem_keys]
    exact exists_congr fun x => (mem_of_filter_eq h3).symm

theorem RInv.itemCount {mx : Nat} (h12 : 12 ≤ mx) {t : Tree K} (h : RInv mx t) (k : K) :
    BTree.itemCount t k = .ok ((fl t.leaves).filter (·.1 = k)).length := by
  unfold BTree.itemCount
  rcases h.findLeaf h12 k with ⟨h1, h2⟩ | ⟨s, h1, h2, h3⟩
  · rw [h2, h1]; rfl
  · rw [h1, h3, ← itemCount_eq h2]; rfl

theorem RInv.getItems {mx : Nat} (h12 : 12 ≤ mx) {t : Tree K} (h : RInv mx t) (k : K) :
    ∃ l, BTree.getItems t k = .ok l ∧ l.Perm (((fl t.leaves).filter (·.1 = k)).map Prod.snd) := by
  unfold BTree.getItems
  rcases h.findLeaf h12 k with ⟨h1, h2⟩ | ⟨s, h1, h2, h3⟩
  · rw [h2, h1]; exact ⟨[], rfl, List.Perm.nil⟩
  · rw [h1, h3]; exact ⟨_, rfl, getItems_perm h2 k⟩

/-- Reading the items of a key one by one. -/
theorem RInv.getItem {mx : Nat} (h12 : 12 ≤ mx) {t : Tree K} (h : RInv mx t) (k : K) :
    ∃ l : List Bytes, (∀ i < ((fl t.leaves).filter (·.1 = k)).length, ∃ x, BTree.getItem t k i = .ok (some x) ∧ l[i]? = some x) ∧
      l.Perm (((fl t.leaves).filter (·.1 = k)).map Prod.snd) := by
  rcases h.findLeaf h12 k with ⟨h1, h2⟩ | ⟨s, h1, h2, h3⟩
  · rw [h1]
    exact ⟨[], fun i hi => absurd hi (by simp), List.Perm.nil⟩
  · rw [h3]
    have hp := getItem_all h2 k
    rw [itemCount_eq h2] at hp
    generalize hn : ((flat s.blocks).filter (·.1 = k)).length = n at hp
    have hall : ∀ i < n, ∃ x, Seg.getItem s k i = some x := by
      intro i hi
      have : Seg.getItem s k i ∈ (List.range n).map fun i => Seg.getItem s k i := List.mem_map.mpr ⟨i, List.mem_range.mpr hi, rfl⟩
      obtain ⟨x, _, hx⟩ := List.mem_map.mp (hp.mem_iff.mp this)
      exact ⟨x, hx.symm⟩
    refine ⟨(List.range n).map fun i => (Seg.getItem s k i).getD [], ?_, ?_⟩
    · intro i hi
      obtain ⟨x, hx⟩ := hall i hi
      refine ⟨x, ?_, ?_⟩
      · unfold BTree.getItem
        rw [h1]
        show Res.ok (Seg.getItem s k i) = _
        rw [hx]
      · rw [List.getElem?_map, List.getElem?_range hi]
        show some ((Seg.getItem s k i).getD []) = _
        rw [hx]; rfl
    · have h5 : ((List.range n).map fun i => (Seg.getItem s k i).getD []).map some = (List.range n).map fun i => Seg.getItem s k i := by
        rw [List.map_map]
        apply List.map_congr_left
        intro i hi
        obtain ⟨x, hx⟩ := hall i (List.mem_range.mp hi)
        simp [hx]
      rw [← h5] at hp
      exact (List.map_perm_map_iff (fun a b hab => Option.some.inj hab)).mp hp

/-! ### scans -/

/-- Both scans of one leaf: `stop` ends the scan, `skip` passes an entry. -/
def scanG (stop skip p : K × Bytes → Bool) : Nat → List (K × Bytes) → List (K × Bytes) × Nat × Bool
  | n, [] => ([], n, false)
  | n, e :: es =>
    if stop e then ([], n, true)
    else if skip e then scanG stop skip p n es
    else if p e then
      if n - 1 = 0 then ([e], 0, true)
      else
        let r := scanG stop skip p (n - 1) es
        (e :: r.1, r.2)
    else scanG stop skip p n es

theorem scanEntries_eq (lo hi : K) (p : K × Bytes → Bool) (n : Nat) (es : List (K × Bytes)) :
    scanEntries lo hi p n es = scanG (fun e => decide (hi < e.1)) (fun e => decide (e.1 < lo)) p n es := by
  induction es generalizing n with
  | nil => rfl
  | cons e es ih => unfold scanEntries scanG; simp only [decide_eq_true_eq, ih]

theorem scanBackEntries_eq (lo hi : K) (p : K × Bytes → Bool) (n : Nat) (es : List (K × Bytes)) :
    scanBackEntries lo hi p n es = scanG (fun e => decide (e.1 < lo)) (fun e => decide (hi < e.1)) p n es := by
  induction es generalizing n with
  | nil => rfl
  | cons e es ih => unfold scanBackEntries scanG; simp only [decide_eq_true_eq, ih]

theorem scanG_ok (stop skip p : K × Bytes → Bool) : ∀ (es rest : List (K × Bytes)) (n : Nat), 0 < n →
    (es ++ rest).Pairwise (fun a b => stop a = true → stop b = true) →
    if (scanG stop skip p n es).2.2 then
      (scanG stop skip p n es).1 = (((es ++ rest).filter fun e => !stop e && !skip e && p e)).take n
    else (scanG stop skip p n es).1 = (es.filter fun e => !stop e && !skip e && p e) ∧
      (scanG stop skip p n es).1.length + (scanG stop skip p n es).2.1 = n ∧ 0 < (scanG stop skip p n es).2.1 := by
  intro es
  induction es with
  | nil => intro rest n hn _; simp [scanG, hn]
  | cons e es ih =>
    intro rest n hn hmono
    rw [List.cons_append] at hmono
    obtain ⟨h1, h2⟩ := List.pairwise_cons.mp hmono
    by_cases hst : stop e = true
    · have hun : scanG stop skip p n (e :: es) = ([], n, true) := by unfold scanG; rw [if_pos hst]
      rw [hun, if_pos rfl]
      have : ((e :: es ++ rest).filter fun e => !stop e && !skip e && p e) = [] := by
        rw [List.filter_eq_nil_iff]
        intro f hf
        rw [List.cons_append] at hf
        rcases List.mem_cons.mp hf with rfl | hf
        · simp [hst]
        · simp [h1 f hf hst]
      rw [this]; simp
    · have hst' : stop e = false := by simpa using hst
      by_cases hsk : skip e = true
      · have hun : scanG stop skip p n (e :: es) = scanG stop skip p n es := by
          conv_lhs => unfold scanG
          rw [if_neg hst, if_pos hsk]
        rw [hun]
        have hf : ∀ l, ((e :: l).filter fun e => !stop e && !skip e && p e) = l.filter fun e => !stop e && !skip e && p e := by
          intro l; rw [List.filter_cons_of_neg]; simp [hsk]
        rw [List.cons_append, hf, hf]
        exact ih rest n hn h2
      · have hsk' : skip e = false := by simpa using hsk
        by_cases hp : p e = true
        · have hf : ∀ l, ((e :: l).filter fun e => !stop e && !skip e && p e) = e :: l.filter fun e => !stop e && !skip e && p e := by
            intro l; rw [List.filter_cons_of_pos]; simp [hsk', hst', hp]
          by_cases h0 : n - 1 = 0
          · have hun : scanG stop skip p n (e :: es) = ([e], 0, true) := by
              conv_lhs => unfold scanG
              rw [if_neg hst, if_neg hsk, if_pos hp, if_pos h0]
            rw [hun, if_pos rfl, List.cons_append, hf]
            have : n = 1 := by omega
            subst this
            rfl
          · have hun : scanG stop skip p n (e :: es) = (e :: (scanG stop skip p (n - 1) es).1, (scanG stop skip p (n - 1) es).2) := by
              conv_lhs => unfold scanG
              rw [if_neg hst, if_neg hsk, if_pos hp, if_neg h0]
            have hih := ih rest (n - 1) (by omega) h2
            rw [hun, List.cons_append, hf, hf]
            simp only
            by_cases ho : (scanG stop skip p (n - 1) es).2.2 = true
            · rw [if_pos ho] at hih ⊢
              rw [hih]
              obtain ⟨m, rfl⟩ : ∃ m, n = m + 1 := ⟨n - 1, by omega⟩
              rfl
            · rw [if_neg ho] at hih ⊢
              obtain ⟨i1, i2, i3⟩ := hih
              refine ⟨by rw [i1], ?_, i3⟩
              rw [List.length_cons]; omega
        · have hun : scanG stop skip p n (e :: es) = scanG stop skip p n es := by
            conv_lhs => unfold scanG
            rw [if_neg hst, if_neg hsk, if_neg hp]
          rw [hun]
          have hf : ∀ l, ((e :: l).filter fun e => !stop e && !skip e && p e) = l.filter fun e => !stop e && !skip e && p e := by
            intro l; rw [List.filter_cons_of_neg]; simp [hp]
          rw [List.cons_append, hf, hf]
          exact ih rest n hn h2

/-- Both scans over the leaves. -/
def scanLG (halt : Seg K → Bool) (dir : Seg K → List (K × Bytes)) (stop skip p : K × Bytes → Bool) : Nat → List (Seg K) → List (K × Bytes)
  | _, [] => []
  | n, s :: ss =>
    if halt s then []
    else
      let r := scanG stop skip p n (dir s)
      if r.2.2 then r.1 else r.1 ++ scanLG halt dir stop skip p r.2.1 ss

theorem scanLeaves_eq (lo hi : K) (p : K × Bytes → Bool) (n : Nat) (ss : List (Seg K)) :
    scanLeaves lo hi p n ss = scanLG (fun s => decide (hi < smin s)) content (fun e => decide (hi < e.1)) (fun e => decide (e.1 < lo)) p n ss := by
  induction ss generalizing n with
  | nil => rfl
  | cons e es ih => unfold scanLeaves scanLG; simp only [decide_eq_true_eq, ih, scanEntries_eq]

theorem scanBackLeaves_eq (lo hi : K) (p : K × Bytes → Bool) (n : Nat) (ss : List (Seg K)) :
    scanBackLeaves lo hi p n ss = scanLG (fun s => decide (smax s < lo)) (fun s => (content s).reverse) (fun e => decide (e.1 < lo))
      (fun e => decide (hi < e.1)) p n ss := by
  induction ss generalizing n with
  | nil => rfl
  | cons e es ih => unfold scanBackLeaves scanLG; simp only [decide_eq_true_eq, ih, scanBackEntries_eq]

theorem scanLG_ok (halt : Seg K → Bool) (dir : Seg K → List (K × Bytes)) (stop skip p : K × Bytes → Bool) : ∀ (ss : List (Seg K)) (n : Nat),
    0 < n → (ss.flatMap dir).Pairwise (fun a b => stop a = true → stop b = true) →
    (∀ s ∈ ss, dir s ≠ [] ∧ (halt s = true → ∀ e ∈ dir s, stop e = true)) →
    scanLG halt dir stop skip p n ss = ((ss.flatMap dir).filter fun e => !stop e && !skip e && p e).take n := by
  intro ss
  induction ss with
  | nil => intro n _ _ _; simp [scanLG]
  | cons s ss ih =>
    intro n hn hmono hh
    rw [List.flatMap_cons] at hmono ⊢
    obtain ⟨m1, m2, m3⟩ := List.pairwise_append.mp hmono
    obtain ⟨hne, hhalt⟩ := hh s (List.mem_cons_self ..)
    by_cases hs : halt s = true
    · have hun : scanLG halt dir stop skip p n (s :: ss) = [] := by unfold scanLG; rw [if_pos hs]
      rw [hun]
      have : ((dir s ++ ss.flatMap dir).filter fun e => !stop e && !skip e && p e) = [] := by
        rw [List.filter_eq_nil_iff]
        intro f hf
        obtain ⟨e0, he0⟩ := List.exists_mem_of_ne_nil _ hne
        rcases List.mem_append.mp hf with hf | hf
        · simp [hhalt hs f hf]
        · simp [m3 e0 he0 f hf (hhalt hs e0 he0)]
      rw [this]; simp
    · have hun : scanLG halt dir stop skip p n (s :: ss) = (if (scanG stop skip p n (dir s)).2.2 then (scanG stop skip p n (dir s)).1 else
          (scanG stop skip p n (dir s)).1 ++ scanLG halt dir stop skip p (scanG stop skip p n (dir s)).2.1 ss) := by
        conv_lhs => unfold scanLG
        rw [if_neg hs]
      rw [hun]
      have h1 := scanG_ok stop skip p (dir s) (ss.flatMap dir) n hn hmono
      by_cases ho : (scanG stop skip p n (dir s)).2.2 = true
      · rw [if_pos ho] at h1 ⊢
        exact h1
      · rw [if_neg ho] at h1 ⊢
        obtain ⟨i1, i2, i3⟩ := h1
        rw [ih _ i3 m2 (fun q hq => hh q (List.mem_cons_of_mem _ hq)), List.filter_append, ← i1, List.take_append]
        rw [List.take_of_length_le (show (scanG stop skip p n (dir s)).1.length ≤ n by omega)]
        congr 2
        omega

theorem content_eq (s : Seg K) : content s = flat s.blocks := rfl

theorem fl_segs (ls : List (Leaf K)) : (ls.map (·.seg)).flatMap content = fl ls := by
  unfold fl
  rw [List.flatMap_map]
  rfl

/-- `full_scan` yields the entries that satisfy the predicate, in key order. -/
theorem RInv.fullScan {mx : Nat} (h12 : 12 ≤ mx) {t : Tree K} (h : RInv mx t) (p : K × Bytes → Bool) :
    BTree.fullScan t p = .ok ((fl t.leaves).filter p) := by
  unfold BTree.fullScan
  by_cases hne : t.leaves = []
  · have : BTree.findLeaf t ⊥ = .ok none := by unfold BTree.findLeaf; rw [hne]; rfl
    rw [this, hne]; rfl
  · obtain ⟨A, l, B, hAB, hd, hA, hB⟩ := h.find h12 hne ⊥
    have hA0 : A = [] := by
      cases A with
      | nil => rfl
      | cons a A =>
        have ha := h.ne a (by rw [hAB]; simp)
        obtain ⟨e, he⟩ := List.exists_mem_of_ne_nil _ ha
        exact absurd (hA e (mem_fl.mpr ⟨a, List.mem_cons_self .., he⟩)) (not_lt.mpr bot_le)
    rcases h.findLeaf h12 ⊥ with ⟨h1, _⟩ | ⟨s, h1, _⟩
    · exact absurd h1 hne
    · rw [h1]
      show Res.ok (((leavesFrom t ⊥).flatMap content).filter p) = _
      unfold leavesFrom
      rw [hd, hA0, List.length_nil, List.drop_zero, fl_segs]

/-- `scan_ascending` yields the first entries in the closed range that satisfy the predicate. -/
theorem RInv.scanAscending {mx : Nat} (h12 : 12 ≤ mx) {t : Tree K} (h : RInv mx t) (lo hi : K) (limit : Nat) (p : K × Bytes → Bool) :
    BTree.scanAscending t lo hi limit p = .ok (((fl t.leaves).filter fun e => decide (lo ≤ e.1) && decide (e.1 ≤ hi) && p e).take limit) := by
  unfold BTree.scanAscending
  rcases h.findLeaf h12 lo with ⟨h1, h2⟩ | ⟨s, h1, _⟩
  · rw [h2, h1]; simp [Res.bind]
  · have hne : t.leaves ≠ [] := by
      intro hc
      unfold BTree.findLeaf at h1
      rw [hc] at h1
      cases h1
    obtain ⟨A, l, B, hAB, hd, hA, hB⟩ := h.find h12 hne lo
    rw [h1]
    show (if limit = 0 then Res.ok [] else Res.ok (scanLeaves lo hi p limit (leavesFrom t lo))) = _
    by_cases h0 : limit = 0
    · rw [if_pos h0, h0]; simp
    · rw [if_neg h0, scanLeaves_eq]
      have hlf : leavesFrom t lo = (l :: B).map (·.seg) := by
        unfold leavesFrom
        rw [hd, hAB]
        simp
      have hs := h.sorted
      rw [hAB, fl_append] at hs
      have hs2 := (sorted_append.mp hs).2.1
      rw [hlf, scanLG_ok _ _ _ _ _ _ _ (by omega), fl_segs]
      · congr 2
        rw [hAB, fl_append, List.filter_append]
        have : (fl A).filter (fun e => decide (lo ≤ e.1) && decide (e.1 ≤ hi) && p e) = [] :=
          List.filter_eq_nil_iff.mpr fun e he => by simp [hA e he]
        rw [this, List.nil_append]
        apply List.filter_congr
        intro e _
        by_cases h1 : hi < e.1 <;> by_cases h2 : e.1 < lo <;> simp [h1, h2, not_lt.mp]
      · rw [fl_segs]
        have := List.pairwise_map.mp hs2
        refine this.imp ?_
        intro a b hab hst
        exact decide_eq_true (lt_of_lt_of_le (of_decide_eq_true hst) hab)
      · intro q hq
        obtain ⟨r, hr, rfl⟩ := List.mem_map.mp hq
        have hrm : r ∈ t.leaves := by rw [hAB]; exact List.mem_append_right _ hr
        refine ⟨h.ne r hrm, ?_⟩
        intro hh e he
        have := (smin_spec (h.pg r hrm) (h.ne r hrm)).2 e he
        exact decide_eq_true (lt_of_lt_of_le (of_decide_eq_true hh) this)

/-- `scan_decending` yields the last entries in the closed range that satisfy the predicate, largest first. -/
theorem RInv.scanDecending {mx : Nat} (h12 : 12 ≤ mx) {t : Tree K} (h : RInv mx t) (lo hi : K) (limit : Nat) (p : K × Bytes → Bool) :
    BTree.scanDecending t lo hi limit p =
      .ok (((fl t.leaves).reverse.filter fun e => decide (lo ≤ e.1) && decide (e.1 ≤ hi) && p e).take limit) := by
  unfold BTree.scanDecending
  rcases h.findLeaf h12 hi with ⟨h1, h2⟩ | ⟨s, h1, _⟩
  · rw [h2, h1]; simp [Res.bind]
  · have hne : t.leaves ≠ [] := by
      intro hc
      unfold BTree.findLeaf at h1
      rw [hc] at h1
      cases h1
    obtain ⟨A, l, B, hAB, hd, hA, hB⟩ := h.find h12 hne hi
    rw [h1]
    show (if limit = 0 then Res.ok [] else Res.ok (scanBackLeaves lo hi p limit (leavesBack t hi))) = _
    by_cases h0 : limit = 0
    · rw [if_pos h0, h0]; simp
    · rw [if_neg h0, scanBackLeaves_eq]
      have hlf : leavesBack t hi = (A ++ [l]).reverse.map (·.seg) := by
        unfold leavesBack
        rw [hd, hAB]
        have : (A ++ l :: B).take (A.length + 1) = A ++ [l] := by
          rw [show A ++ l :: B = (A ++ [l]) ++ B by simp, List.take_append_of_le_length (by simp), List.take_of_length_le (by simp)]
        rw [this]
      have hfl : ((A ++ [l]).reverse.map (·.seg)).flatMap (fun s => (content s).reverse) = (fl (A ++ [l])).reverse := by
        unfold fl
        rw [List.flatMap_map]
        have : ∀ ls : List (Leaf K), ls.reverse.flatMap (fun a => (content a.seg).reverse) = (ls.flatMap lflat).reverse := by
          intro ls
          induction ls with
          | nil => rfl
          | cons q ls ih =>
            rw [List.reverse_cons, List.flatMap_append, ih]
            simp [content_eq]
        exact this _
      have hAB' : t.leaves = (A ++ [l]) ++ B := by rw [hAB]; simp
      have hs := h.sorted
      rw [hAB', fl_append] at hs
      have hs2 := (sorted_append.mp hs).1
      rw [hlf, scanLG_ok _ _ _ _ _ _ _ (by omega), hfl]
      · congr 2
        rw [hAB', fl_append (A ++ [l]) B, List.reverse_append, List.filter_append]
        have : (fl B).reverse.filter (fun e => decide (lo ≤ e.1) && decide (e.1 ≤ hi) && p e) = [] :=
          List.filter_eq_nil_iff.mpr fun e he => by simp [hB e (List.mem_reverse.mp he)]
        rw [this, List.nil_append]
        apply List.filter_congr
        intro e _
        by_cases h1 : hi < e.1 <;> by_cases h2 : e.1 < lo <;> simp [h1, h2, not_lt.mp]
      · rw [hfl, List.pairwise_reverse]
        have := List.pairwise_map.mp hs2
        refine this.imp ?_
        intro a b hab hst
        exact decide_eq_true (lt_of_le_of_lt hab (of_decide_eq_true hst))
      · intro q hq
        obtain ⟨r, hr, rfl⟩ := List.mem_map.mp hq
        have hrm : r ∈ t.leaves := by rw [hAB']; exact List.mem_append_left _ (List.mem_reverse.mp hr)
        refine ⟨fun hc => h.ne r hrm (List.reverse_eq_nil_iff.mp hc), ?_⟩
        intro hh e he
        have := (smax_spec (h.pg r hrm) (h.ne r hrm)).2 e (List.mem_reverse.mp he)
        exact decide_eq_true (lt_of_le_of_lt this (of_decide_eq_true hh))

/-! ### reloading -/

theorem pack_ok {mx : Nat} (h12 : 12 ≤ mx) : ∀ (fuel n : Nat), n ≤ fuel → 2 ≤ n →
    (pack mx fuel n).sum = n ∧ (∀ c ∈ pack mx fuel n, c ≤ mx ∧ 2 ≤ c) ∧ 0 < (pack mx fuel n).length ∧ 2 * (pack mx fuel n).length ≤ n ∧
    ((pack mx fuel n).length ≠ 1 ∨ mx / 4 ≤ n → ∀ c ∈ pack mx fuel n, mx / 4 ≤ c) := by
  intro fuel
  induction fuel with
  | zero => intro n h1 h2; omega
  | succ fuel ih =>
    intro n h1 h2
    by_cases hc : (mx + mx / 4) / 2 + mx / 4 ≤ n
    · have hun : pack mx (fuel + 1) n = (mx + mx / 4) / 2 :: pack mx fuel (n - (mx + mx / 4) / 2) := by
        conv_lhs => unfold pack
        rw [if_neg (by omega)]
        simp only [if_pos hc]
      obtain ⟨i1, i2, i3, i4, i5⟩ := ih (n - (mx + mx / 4) / 2) (by omega) (by omega)
      have i5' := i5 (Or.inr (by omega))
      rw [hun]
      refine ⟨by rw [List.sum_cons, i1]; omega, ?_, by simp, by rw [List.length_cons]; omega, fun _ => ?_⟩
      · intro c hc
        rcases List.mem_cons.mp hc with rfl | hc
        · constructor <;> omega
        · exact i2 c hc
      · intro c hc
        rcases List.mem_cons.mp hc with rfl | hc
        · omega
        · exact i5' c hc
    · have hun : pack mx (fuel + 1) n = [n] := by
        conv_lhs => unfold pack
        rw [if_neg (by omega)]
        simp only [if_neg hc]
      rw [hun]
      refine ⟨by simp, ?_, by simp, by simpa using h2, ?_⟩
      · intro c hc; rw [List.mem_singleton.mp hc]; constructor <;> omega
      · intro h c hc
        rw [List.mem_singleton.mp hc]
        rcases h with h | h
        · simp at h
        · exact h

theorem build_ok {mx : Nat} (h12 : 12 ≤ mx) : ∀ (fuel n : Nat), n ≤ fuel → 1 ≤ n → Shape mx (build mx fuel n) n := by
  intro fuel
  induction fuel with
  | zero => intro n h1 h2; omega
  | succ fuel ih =>
    intro n h1 h2
    unfold build
    by_cases hn : n ≤ 1
    · rw [if_pos hn]; show n = 1; omega
    · rw [if_neg hn]
      obtain ⟨i1, i2, i3, i4, i5⟩ := pack_ok h12 n n (Nat.le_refl _) (by omega)
      have hs := ih (pack mx n n).length (by omega) (by omega)
      refine ⟨i1, fun c hc => (i2 c hc).1, ?_, hs⟩
      intro c hc
      by_cases hup : build mx fuel (pack mx n n).length = []
      · rw [if_pos hup]; exact (i2 c hc).2
      · rw [if_neg hup]
        refine i5 (Or.inl ?_) c hc
        intro h1
        apply hup
        rw [h1]
        cases fuel with
        | zero => rfl
        | succ f => rfl

theorem reload_leaves {mx : Nat} {t : Tree K} (h : RInv mx t) : (reload mx t).leaves = t.leaves := by
  show t.leaves.map (fun l => (⟨l.seg, false⟩ : Leaf K)) = t.leaves
  conv_rhs => rw [← List.map_id t.leaves]
  apply List.map_congr_left
  intro l hl
  obtain ⟨s, k⟩ := l
  have : k = false := h.open' _ hl
  rw [this]; rfl

theorem RInv.reload {mx : Nat} (h12 : 12 ≤ mx) {t : Tree K} (h : RInv mx t) : RInv mx (reload mx t) := by
  have hl := reload_leaves h
  refine ⟨by rw [hl]; exact h.pg, by rw [hl]; exact h.open', by rw [hl]; exact h.ne, by rw [hl]; exact h.order, ?_⟩
  rw [hl]
  by_cases hne : t.leaves = []
  · left
    refine ⟨hne, ?_⟩
    show build mx t.leaves.length t.leaves.length = []
    rw [hne]; rfl
  · right
    exact build_ok h12 _ _ (Nat.le_refl _) (List.length_pos_iff.mpr hne)

end Verif.BTree
