import Verif.Table.Group
/-! The invariant of a table and that appends, deletes and updates keep it. -/
namespace Verif.Table
open Verif.Mvcc (CAP Mgr Txn NOT_DELETED)
variable {α : Type}

/-- Consecutive row groups from row `a` to row `e`. -/
def GChain : Nat → List (RowGroup α) → Nat → Prop
  | a, [], e => a = e
  | a, g :: gs, e => g.start = a ∧ GChain (a + g.count) gs e

theorem gchain_append {a e : Nat} {l r : List (RowGroup α)} : GChain a (l ++ r) e ↔ ∃ m, GChain a l m ∧ GChain m r e := by
  induction l generalizing a with
  | nil => simp [GChain]
  | cons g l ih => simp [GChain, ih, and_assoc]

theorem gchain_le {a e : Nat} {l : List (RowGroup α)} (h : GChain a l e) : a ≤ e := by
  induction l generalizing a with
  | nil => have : a = e := h; omega
  | cons g l ih => have := ih h.2; omega

theorem gchain_bounds {a e : Nat} {l : List (RowGroup α)} (h : GChain a l e) : ∀ g ∈ l, a ≤ g.start ∧ g.start + g.count ≤ e := by
  induction l generalizing a with
  | nil => simp
  | cons g l ih =>
    intro x hx
    rw [List.mem_cons] at hx
    have h1 := h.1
    have h2 := gchain_le h.2
    rcases hx with rfl | hx
    · omega
    · have := ih h.2 x hx; omega

theorem gchain_sorted {a e : Nat} {l : List (RowGroup α)} (h : GChain a l e) :
    (l.map fun g => (⟨g.start, g.count⟩ : SegLookup.Seg)).Pairwise fun x y => x.start + x.count ≤ y.start := by
  induction l generalizing a with
  | nil => simp
  | cons g l ih =>
    rw [List.map_cons, List.pairwise_cons]
    refine ⟨?_, ih h.2⟩
    intro y hy
    rw [List.mem_map] at hy
    obtain ⟨x, hx, rfl⟩ := hy
    have := (gchain_bounds h.2 x hx).1
    have := h.1
    simp only
    omega

theorem gchain_find {a e : Nat} {l : List (RowGroup α)} (h : GChain a l e) {row : Nat} (h1 : a ≤ row) (h2 : row < e) :
    ∃ g ∈ l, g.start ≤ row ∧ row < g.start + g.count := by
  induction l generalizing a with
  | nil => have : a = e := h; omega
  | cons g l ih =>
    by_cases hlt : row < a + g.count
    · exact ⟨g, by simp, by have := h.1; omega, by have := h.1; omega⟩
    · obtain ⟨x, hx, h3⟩ := ih h.2 (by omega)
      exact ⟨x, by simp [hx], h3⟩

theorem gchain_set {a e : Nat} {l : List (RowGroup α)} (h : GChain a l e) {i : Nat} {g g' : RowGroup α} (hi : l[i]? = some g)
    (h1 : g'.start = g.start) (h2 : g'.count = g.count) : GChain a (l.set i g') e := by
  induction l generalizing a i with
  | nil => simp at hi
  | cons x l ih =>
    cases i with
    | zero => simp at hi; subst hi; exact ⟨by rw [h1]; exact h.1, by rw [h2]; exact h.2⟩
    | succ i => exact ⟨h.1, ih h.2 (by simpa using hi)⟩

theorem gchain_short {a e : Nat} {l : List (RowGroup α)} (h : GChain a l e) (hne : ∀ g ∈ l.dropLast, 0 < g.count) :
    l.length ≤ e - a + 1 := by
  induction l generalizing a with
  | nil => simp
  | cons g l ih =>
    cases l with
    | nil => simp
    | cons g' l =>
      have h1 := hne g (by simp)
      have h2 := ih h.2 (fun x hx => hne x (by simp [hx]))
      have := gchain_le h.2
      simp only [List.length_cons] at h2 ⊢
      omega

/-- What always holds for a table: `s` is what its user thinks it is, `u` the rows updated so far. -/
structure Inv (tys : List (ColTy α)) (t : Table α) (s : Ideal α) (u : Nat → Bool) : Prop where
  types : ∀ ty ∈ tys, ty.Ok
  same : t.tys = tys
  ok : s.Ok u tys.length
  total : t.total = s.rows
  pos : 0 < t.rgSize
  le : t.rgSize ≤ CAP
  chain : GChain 0 t.groups s.rows
  full : ∀ g ∈ t.groups.dropLast, g.count = t.rgSize
  groups : ∀ g ∈ t.groups, GroupOk g s u g.count ∧ g.count ≤ t.rgSize

variable {tys : List (ColTy α)} {t t' : Table α} {s : Ideal α} {u : Nat → Bool}

theorem Inv.ordered (h : Inv tys t s u) : SegLookup.Ordered t.nodes := by
  refine ⟨gchain_sorted h.chain, ?_, ?_⟩
  · intro x hx
    unfold Table.nodes at hx
    rw [List.mem_map] at hx
    obtain ⟨g, hg, rfl⟩ := hx
    have := (gchain_bounds h.chain g hg).2
    have := h.ok.small
    simp only
    omega
  · have := gchain_short h.chain (fun g hg => by have := h.full g hg; have := h.pos; omega)
    have := h.ok.small
    unfold Table.nodes
    rw [List.length_map]
    omega

theorem Inv.search (h : Inv tys t s u) (row : Nat) : SegLookup.Correct t.nodes row (SegLookup.tryIndex t.nodes row) := by
  apply SegLookup.C41_lookup_partial _ _ h.ordered
  intro x hx
  unfold Table.nodes at hx
  rw [List.getElem?_map] at hx
  cases hg : t.groups with
  | nil => rw [hg] at hx; simp at hx
  | cons g gs =>
    rw [hg] at hx
    simp at hx
    have := h.chain
    rw [hg] at this
    have := this.1
    subst hx
    simp only
    omega

/-- The search for a row. -/
theorem Inv.tryIndex (h : Inv tys t s u) (row : Nat) :
    (∃ gi g, SegLookup.tryIndex t.nodes row = .ok (some gi) ∧ t.groups[gi]? = some g ∧ g.start ≤ row ∧ row < g.start + g.count ∧
      row < s.rows) ∨ SegLookup.tryIndex t.nodes row = .ok none ∧ s.rows ≤ row := by
  have hc := h.search row
  cases ht : SegLookup.tryIndex t.nodes row with
  | ok r =>
    rw [ht] at hc
    cases r with
    | none =>
      right
      refine ⟨rfl, ?_⟩
      by_contra hlt
      obtain ⟨g, hg, h1, h2⟩ := gchain_find h.chain (Nat.zero_le row) (by omega)
      exact hc ⟨g.start, g.count⟩ (by unfold Table.nodes; exact List.mem_map.mpr ⟨g, hg, rfl⟩) ⟨h1, h2⟩
    | some i =>
      left
      obtain ⟨x, hx, hcon⟩ := hc
      unfold Table.nodes at hx
      rw [List.getElem?_map, Option.map_eq_some_iff] at hx
      obtain ⟨g, hg, rfl⟩ := hx
      have := (gchain_bounds h.chain g (List.mem_of_getElem? hg)).2
      exact ⟨i, g, rfl, hg, hcon.1, hcon.2, by have := hcon.2; simp only at this; omega⟩
  | throws => rw [ht] at hc; exact hc.elim
  | ub => rw [ht] at hc; exact hc.elim
  | diverges => rw [ht] at hc; exact hc.elim

theorem Inv.groupOf (h : Inv tys t s u) (row : Nat) :
    (∃ gi g, t.groupOf row = .ok gi ∧ t.groups[gi]? = some g ∧ g.start ≤ row ∧ row < g.start + g.count ∧
      row < s.rows) ∨ t.groupOf row = .throws ∧ s.rows ≤ row := by
  unfold Table.groupOf SegLookup.segmentIndex
  rcases h.tryIndex row with ⟨gi, g, h1, h2⟩ | ⟨h1, h2⟩
  · rw [h1]; exact .inl ⟨gi, g, rfl, h2⟩
  · rw [h1]; exact .inr ⟨rfl, h2⟩

/-- Two groups do not share rows. -/
theorem Inv.apart (h : Inv tys t s u) {i j : Nat} {a b : RowGroup α} (hi : t.groups[i]? = some a) (hj : t.groups[j]? = some b)
    (hne : i ≠ j) : ∀ r, a.start ≤ r → r < a.start + a.count → r < b.start ∨ b.start + b.count ≤ r := by
  intro r h1 h2
  by_contra hc
  apply hne
  apply SegLookup.C41_segment_unique t.nodes r i j ⟨a.start, a.count⟩ ⟨b.start, b.count⟩ h.ordered
  · unfold Table.nodes; rw [List.getElem?_map, hi]; rfl
  · unfold Table.nodes; rw [List.getElem?_map, hj]; rfl
  · exact ⟨h1, h2⟩
  · constructor <;> simp only <;> omega

/-- Replacing one group, when all other groups are fine as well. -/
theorem Inv.replace (h : Inv tys t s u) {gi : Nat} {g g' : RowGroup α} (hg : t.groups[gi]? = some g) {s' : Ideal α} {u' : Nat → Bool}
    (hok : s'.Ok u' tys.length) (hr : s'.rows = s.rows) (h1 : GroupOk g' s' u' g.count) (h2 : g'.start = g.start)
    (h3 : g'.count = g.count) (h4 : ∀ j x, j ≠ gi → t.groups[j]? = some x → GroupOk x s' u' x.count) :
    Inv tys { t with groups := t.groups.set gi g' } s' u' := by
  have hlt := (List.getElem?_eq_some_iff.mp hg).1
  refine ⟨h.types, h.same, hok, by rw [hr]; exact h.total, h.pos, h.le, by rw [hr]; exact gchain_set h.chain hg h2 h3, ?_, ?_⟩
  · intro x hx
    simp only at hx ⊢
    rw [List.dropLast_eq_take, List.length_set, List.take_set] at hx
    obtain ⟨j, hj⟩ := List.getElem?_of_mem hx
    rw [List.getElem?_set] at hj
    split at hj
    · next he =>
      split at hj
      · next hb =>
        cases hj
        rw [h3]
        apply h.full
        rw [List.dropLast_eq_take]
        subst he
        apply List.mem_of_getElem? (i := gi)
        rw [List.getElem?_take, if_pos (by simp at hb; omega)]
        exact hg
      · cases hj
    · apply h.full
      rw [List.dropLast_eq_take]
      exact List.mem_of_getElem? hj
  · intro x hx
    simp only at hx ⊢
    obtain ⟨j, hj⟩ := List.getElem?_of_mem hx
    rw [List.getElem?_set] at hj
    split at hj
    · simp only [hlt, if_true, Option.some.injEq] at hj
      subst hj
      rw [h3]
      exact ⟨h1, (h.groups g (List.mem_of_getElem? hg)).2⟩
    · next hne => exact ⟨h4 j x (fun e => hne e.symm) hj, (h.groups x (List.mem_of_getElem? hj)).2⟩

/-! ### Appending -/

theorem append_zero {ch : Chunk α} (h : s.cols.length = ch.cols.length) : s.append (ch.take 0) = s := by
  unfold Ideal.append Chunk.take
  simp only [Nat.add_zero, List.take_zero]
  have : List.zipWith (· ++ ·) s.cols (ch.cols.map fun _ => ([] : List (Cell α))) = s.cols := by
    apply List.ext_getElem?
    intro i
    rw [List.getElem?_zipWith, List.getElem?_map]
    cases h1 : s.cols[i]? with
    | none => rfl
    | some l =>
      have : i < ch.cols.length := by rw [← h]; exact (List.getElem?_eq_some_iff.mp h1).1
      simp [List.getElem?_eq_getElem this]
  rw [this]

theorem append_split (s : Ideal α) (ch : Chunk α) {n : Nat} (hn : n ≤ ch.size) :
    (s.append (ch.take n)).append (ch.drop n) = s.append ch := by
  unfold Ideal.append Chunk.take Chunk.drop
  simp only [Ideal.mk.injEq, and_true]
  refine ⟨by omega, ?_⟩
  apply List.ext_getElem?
  intro i
  simp only [List.getElem?_zipWith, List.getElem?_map]
  cases s.cols[i]? <;> cases ch.cols[i]? <;> simp

theorem Chunk.For.take {ch : Chunk α} {w n : Nat} (h : ch.For w) (hn : n ≤ ch.size) : (ch.take n).For w := by
  refine ⟨by simp [Chunk.take, h.width], ?_⟩
  intro c hc
  unfold Chunk.take at hc ⊢
  simp only [List.mem_map] at hc ⊢
  obtain ⟨b, hb, rfl⟩ := hc
  have := h.height b hb
  simp; omega

theorem Chunk.For.drop {ch : Chunk α} {w : Nat} (h : ch.For w) (n : Nat) : (ch.drop n).For w := by
  refine ⟨by simp [Chunk.drop, h.width], ?_⟩
  intro c hc
  unfold Chunk.drop at hc ⊢
  simp only [List.mem_map] at hc ⊢
  obtain ⟨b, hb, rfl⟩ := hc
  have := h.height b hb
  simp; omega

/-- Row groups from row `a` to row `e` that hold `rg` rows each, `r` of them not yet counted. -/
def Filled (s : Ideal α) (u : Nat → Bool) (rg : Nat) : Nat → List (RowGroup α) → Nat → Nat → Prop
  | a, [], e, r => a = e ∧ r = 0
  | a, g :: gs, e, r => g.start = a ∧ GroupOk g s u rg ∧ g.count ≤ rg ∧ ∃ r', r = rg - g.count + r' ∧ Filled s u rg (a + rg) gs e r'

theorem Filled.le {rg a e r : Nat} {l : List (RowGroup α)} (h : Filled s u rg a l e r) : a ≤ e := by
  induction l generalizing a r with
  | nil => have := h.1; omega
  | cons g l ih => obtain ⟨_, _, _, r', _, h⟩ := h; have := ih h; omega

theorem Filled.append {rg a m e r r' : Nat} {l l' : List (RowGroup α)} (h : Filled s u rg a l m r) (h' : Filled s u rg m l' e r') :
    Filled s u rg a (l ++ l') e (r + r') := by
  induction l generalizing a r with
  | nil => obtain ⟨rfl, rfl⟩ := h; simpa using h'
  | cons g l ih =>
    obtain ⟨h1, h2, h3, r1, rfl, h4⟩ := h
    exact ⟨h1, h2, h3, r1 + r', by omega, ih h4⟩

theorem Filled.stable {rg a e r w : Nat} {l : List (RowGroup α)} (h : Filled s u rg a l e r) (hs : s.Ok u w) {ch : Chunk α}
    (hch : ch.For w) (he : e ≤ s.rows) : Filled (s.append ch) u rg a l e r := by
  induction l generalizing a r with
  | nil => exact h
  | cons g l ih =>
    obtain ⟨h1, h2, h3, r', h4, h5⟩ := h
    have := h5.le
    exact ⟨h1, h2.stable hs hch (by omega), h3, r', h4, ih h5⟩

theorem groupLoop_ok (hty : ∀ ty ∈ tys, ty.Ok) {rg : Nat} (hrg : 0 < rg) : ∀ (fuel : Nat) (pre : List (RowGroup α)) (cur : RowGroup α)
    (offset : Nat) (ch : Chunk α) (s : Ideal α), s.Ok u tys.length → GroupOk cur s u offset → cur.Ready →
    cur.start + offset = s.rows → offset ≤ rg → cur.count ≤ offset → ch.For tys.length → s.rows + ch.size < 2 ^ 62 →
    ch.size + (if offset = rg then 1 else 0) < fuel →
    ∃ new cur' offset' r, groupLoop tys rg fuel pre cur offset ch = .ok (pre ++ new, cur', offset') ∧
      Filled (s.append ch) u rg cur.start new cur'.start r ∧ GroupOk cur' (s.append ch) u offset' ∧ cur'.Ready ∧
      cur'.start + offset' = (s.append ch).rows ∧ offset' ≤ rg ∧ cur'.count ≤ offset' ∧
      r + (offset' - cur'.count) = offset - cur.count + ch.size := by
  intro fuel
  induction fuel with
  | zero => intros; omega
  | succ f ih =>
    intro pre cur offset ch s hs hg hrd hst hoff hcnt hch hsm hf
    unfold groupLoop
    simp only
    have hn : min ch.size (rg - offset) ≤ ch.size := by omega
    generalize hnn : min ch.size (rg - offset) = n at hn
    obtain ⟨cur', h1, h2, h3, h4, h5⟩ : ∃ cur', (if n = 0 then Res.ok cur else cur.append ch n) = .ok cur' ∧
        GroupOk cur' (s.append (ch.take n)) u (offset + n) ∧ cur'.Ready ∧ cur'.start = cur.start ∧ cur'.count = cur.count := by
      by_cases h0 : n = 0
      · rw [if_pos h0, h0]
        rw [append_zero (by rw [hs.width, hch.width])]
        exact ⟨cur, rfl, hg, hrd, rfl, rfl⟩
      · rw [if_neg h0]
        exact hg.append hs hrd hch hst hn (by omega)
    rw [h1, Res.bind_ok]
    have hs1 := hs.append (hch.take hn) (by simp only [Chunk.take]; omega)
    have hrows1 : (s.append (ch.take n)).rows = s.rows + n := rfl
    by_cases hend : ch.size - n = 0
    · rw [if_pos hend]
      have hall : s.append ch = s.append (ch.take n) := by
        rw [show ch.take n = ch from ?_]
        unfold Chunk.take
        have hn' : n = ch.size := by omega
        rw [hn']
        cases ch with
        | mk size cols =>
          simp only [Chunk.mk.injEq, true_and]
          conv_rhs => rw [← List.map_id cols]
          apply List.map_congr_left
          intro c hc
          have := hch.height c hc
          simp only at this
          rw [List.take_of_length_le (by omega)]; rfl
      refine ⟨[], cur', offset + n, 0, by simp, ?_, ?_, h3, ?_, by omega, by omega, by omega⟩
      · exact ⟨h4.symm, rfl⟩
      · rw [hall]; exact h2
      · rw [h4, hall, hrows1]; omega
    · rw [if_neg hend]
      have hfull : offset + n = rg := by omega
      rw [hfull] at h2 ⊢
      have hge : GroupOk (RowGroup.empty tys (cur'.start + rg)).initAppend (s.append (ch.take n)) u 0 ∧
          (RowGroup.empty tys (cur'.start + rg)).initAppend.Ready :=
        (GroupOk.empty hty hs1.width (by omega)).initAppend
      have hstart : (RowGroup.empty tys (cur'.start + rg)).initAppend.start = cur'.start + rg := rfl
      have hcount : (RowGroup.empty tys (cur'.start + rg)).initAppend.count = 0 := rfl
      have hsz : (ch.drop n).size = ch.size - n := rfl
      obtain ⟨new, cur2, off2, r, k1, k2, k3, k4, k5, k6, k7, k8⟩ := ih (pre ++ [cur']) _ 0 (ch.drop n) _ hs1 hge.1 hge.2
        (by rw [hstart, hrows1]; omega) (by omega) (by rw [hcount]) (hch.drop n) (by rw [hrows1, hsz]; omega)
        (by rw [hsz, if_neg (by omega)]; split at hf <;> omega)
      rw [append_split s ch hn] at k2 k3 k5
      refine ⟨cur' :: new, cur2, off2, rg - cur'.count + r, ?_, ?_, k3, k4, k5, k6, k7, ?_⟩
      · rw [k1]; simp
      · refine ⟨h4, ?_, by omega, r, rfl, ?_⟩
        · rw [← append_split s ch hn]
          exact h2.stable hs1 (hch.drop n) (by rw [hrows1]; omega)
        · rw [hstart, h4] at k2
          exact k2
      · rw [hcount, hsz] at k8
        omega

theorem rows_foldl (chs : List (Chunk α)) (s : Ideal α) : (chs.foldl Ideal.append s).rows = s.rows + (chs.map Chunk.size).sum := by
  induction chs generalizing s with
  | nil => simp
  | cons c cs ih =>
    rw [List.foldl_cons, ih]
    simp [Ideal.append, Nat.add_assoc]

theorem ok_foldl {w : Nat} : ∀ (chs : List (Chunk α)) (s : Ideal α), s.Ok u w → (∀ ch ∈ chs, ch.For w) →
    (chs.foldl Ideal.append s).rows < 2 ^ 62 → (chs.foldl Ideal.append s).Ok u w
  | [], _, h, _, _ => h
  | c :: cs, s, h, hc, hr => by
    rw [List.foldl_cons] at hr ⊢
    refine ok_foldl cs _ (h.append (hc c (by simp)) ?_) (fun x hx => hc x (by simp [hx])) hr
    rw [rows_foldl] at hr
    simp only [Ideal.append] at hr
    omega

theorem stable_foldl {w n : Nat} {g : RowGroup α} : ∀ (chs : List (Chunk α)) (s : Ideal α), s.Ok u w → (∀ ch ∈ chs, ch.For w) →
    (chs.foldl Ideal.append s).rows < 2 ^ 62 → g.start + n ≤ s.rows → GroupOk g s u n → GroupOk g (chs.foldl Ideal.append s) u n
  | [], _, _, _, _, _, h => h
  | c :: cs, s, h, hc, hr, hn, hg => by
    rw [List.foldl_cons] at hr ⊢
    have hr' : s.rows + c.size < 2 ^ 62 := by
      rw [rows_foldl] at hr
      simp only [Ideal.append] at hr
      omega
    exact stable_foldl cs _ (h.append (hc c (by simp)) hr') (fun x hx => hc x (by simp [hx])) hr
      (by simp only [Ideal.append]; omega) (hg.stable h (hc c (by simp)) hn)

theorem filled_foldl {w rg a e r : Nat} {l : List (RowGroup α)} : ∀ (chs : List (Chunk α)) (s : Ideal α), s.Ok u w → (∀ ch ∈ chs, ch.For w) →
    (chs.foldl Ideal.append s).rows < 2 ^ 62 → e ≤ s.rows → Filled s u rg a l e r → Filled (chs.foldl Ideal.append s) u rg a l e r
  | [], _, _, _, _, _, h => h
  | c :: cs, s, h, hc, hr, hn, hg => by
    rw [List.foldl_cons] at hr ⊢
    have hr' : s.rows + c.size < 2 ^ 62 := by
      rw [rows_foldl] at hr
      simp only [Ideal.append] at hr
      omega
    exact filled_foldl cs _ (h.append (hc c (by simp)) hr') (fun x hx => hc x (by simp [hx])) hr
      (by simp only [Ideal.append]; omega) (hg.stable h (hc c (by simp)) hn)

theorem appendChunks_ok (hty : ∀ ty ∈ tys, ty.Ok) {rg : Nat} (hrg : 0 < rg) : ∀ (chs : List (Chunk α)) (pre : List (RowGroup α)) (cur : RowGroup α)
    (offset : Nat) (s : Ideal α), s.Ok u tys.length → GroupOk cur s u offset → cur.Ready →
    cur.start + offset = s.rows → offset ≤ rg → cur.count ≤ offset → (∀ ch ∈ chs, ch.For tys.length) →
    (chs.foldl Ideal.append s).rows < 2 ^ 62 →
    ∃ new cur' offset' r, appendChunks tys rg chs pre cur offset = .ok (pre ++ new ++ [cur']) ∧
      Filled (chs.foldl Ideal.append s) u rg cur.start new cur'.start r ∧ GroupOk cur' (chs.foldl Ideal.append s) u offset' ∧
      cur'.start + offset' = (chs.foldl Ideal.append s).rows ∧ offset' ≤ rg ∧ cur'.count ≤ offset' ∧
      r + (offset' - cur'.count) = offset - cur.count + (chs.map Chunk.size).sum
  | [], pre, cur, offset, s, hs, hg, _, hst, hoff, hcnt, _, _ =>
    ⟨[], cur, offset, 0, by simp [appendChunks], ⟨rfl, rfl⟩, hg, hst, hoff, hcnt, by simp⟩
  | ch :: chs, pre, cur, offset, s, hs, hg, hrd, hst, hoff, hcnt, hch, hsm => by
    rw [List.foldl_cons] at hsm ⊢
    have hsm' : s.rows + ch.size < 2 ^ 62 := by
      rw [rows_foldl] at hsm
      simp only [Ideal.append] at hsm
      omega
    obtain ⟨new, cur1, off1, r, k1, k2, k3, k4, k5, k6, k7, k8⟩ := groupLoop_ok hty hrg (ch.size + 2) pre cur offset ch s hs hg hrd hst hoff hcnt
      (hch ch (by simp)) hsm' (by split <;> omega)
    have hs1 := hs.append (hch ch (by simp)) hsm'
    obtain ⟨new2, cur2, off2, r2, l1, l2, l3, l5, l6, l7, l8⟩ := appendChunks_ok hty hrg chs (pre ++ new) cur1 off1 _ hs1 k3 k4 k5 k6 k7
      (fun x hx => hch x (by simp [hx])) hsm
    refine ⟨new ++ new2, cur2, off2, r + r2, ?_, ?_, l3, l5, l6, l7, ?_⟩
    · unfold appendChunks
      rw [k1, Res.bind_ok, l1]
      simp
    · exact (filled_foldl chs _ hs1 (fun x hx => hch x (by simp [hx])) hsm (by omega) k2).append l2
    · rw [List.map_cons, List.sum_cons]
      omega

theorem finalize_ok {rg : Nat} {cur : RowGroup α} {off : Nat} (hcur : GroupOk cur s u off) (hoff : off ≤ rg) (hcnt : cur.count ≤ off) :
    ∀ (new : List (RowGroup α)) (a r : Nat), Filled s u rg a new cur.start r →
      ∃ gs, finalize rg (r + (off - cur.count)) (new ++ [cur]) = .ok gs ∧ GChain a gs (cur.start + off) ∧
        (∀ g ∈ gs, GroupOk g s u g.count ∧ g.count ≤ rg) ∧ (∀ g ∈ gs.dropLast, g.count = rg) ∧ gs ≠ []
  | [], a, r, h => by
    obtain ⟨rfl, rfl⟩ := h
    rw [List.nil_append, Nat.zero_add]
    cases hd : off - cur.count with
    | zero =>
      have : cur.count = off := by omega
      refine ⟨[cur], by unfold finalize; rfl, ⟨rfl, by rw [this]; exact rfl⟩, ?_, by simp, by simp⟩
      intro g hg
      rw [List.mem_singleton] at hg
      subst hg
      rw [this]
      exact ⟨hcur, hoff⟩
    | succ d =>
      have hmin : min (d + 1) (rg - cur.count) = d + 1 := by omega
      have hc : (cur.bump rg (d + 1)).count = off := by
        show min (cur.count + (d + 1)) rg = off
        omega
      refine ⟨[cur.bump rg (d + 1)], ?_, ⟨rfl, by rw [hc]; exact rfl⟩, ?_, by simp, by simp⟩
      · unfold finalize
        simp only
        rw [hmin, Nat.sub_self]
        unfold finalize
        rfl
      · intro g hg
        rw [List.mem_singleton] at hg
        subst hg
        rw [hc]
        exact ⟨⟨hcur.width, hcur.cols, hcur.vers⟩, hoff⟩
  | g :: new, a, r, h => by
    obtain ⟨h1, h2, h3, r', rfl, h4⟩ := h
    obtain ⟨gs, k1, k2, k3, k4, k5⟩ := finalize_ok hcur hoff hcnt new (a + rg) r' h4
    by_cases h0 : rg - g.count + r' + (off - cur.count) = 0
    · have hz : r' + (off - cur.count) = 0 := by omega
      have hgc : g.count = rg := by omega
      rw [hz] at k1
      have : gs = new ++ [cur] := by
        unfold finalize at k1
        exact (Res.ok.inj k1).symm
      subst this
      refine ⟨g :: (new ++ [cur]), ?_, ⟨h1, by rw [hgc]; exact k2⟩, ?_, ?_, by simp⟩
      · rw [h0]; unfold finalize; rfl
      · intro x hx
        rw [List.mem_cons] at hx
        rcases hx with rfl | hx
        · rw [hgc]; exact ⟨h2, le_refl _⟩
        · exact k3 x hx
      · intro x hx
        rw [List.dropLast_cons_of_ne_nil k5, List.mem_cons] at hx
        rcases hx with rfl | hx
        · exact hgc
        · exact k4 x hx
    · obtain ⟨d, hd⟩ : ∃ d, rg - g.count + r' + (off - cur.count) = d + 1 := ⟨_, (Nat.succ_pred_eq_of_ne_zero h0).symm⟩
      have hmin : min (d + 1) (rg - g.count) = rg - g.count := by omega
      have hc : (g.bump rg (rg - g.count)).count = rg := by
        show min (g.count + (rg - g.count)) rg = rg
        omega
      refine ⟨g.bump rg (rg - g.count) :: gs, ?_, ⟨h1, by rw [hc]; exact k2⟩, ?_, ?_, by simp⟩
      · rw [hd, List.cons_append]
        unfold finalize
        simp only
        rw [hmin, show d + 1 - (rg - g.count) = r' + (off - cur.count) by omega, k1]
        rfl
      · intro x hx
        rw [List.mem_cons] at hx
        rcases hx with rfl | hx
        · rw [hc]; exact ⟨⟨h2.width, h2.cols, h2.vers⟩, le_refl _⟩
        · exact k3 x hx
      · intro x hx
        rw [List.dropLast_cons_of_ne_nil k5, List.mem_cons] at hx
        rcases hx with rfl | hx
        · exact hc
        · exact k4 x hx

theorem Inv.new (hty : ∀ ty ∈ tys, ty.Ok) : Inv tys (Table.create tys) (Ideal.empty tys.length) (fun _ => false) := by
  refine ⟨hty, rfl, ⟨by simp [Ideal.empty], ?_, by simp [Ideal.empty], by simp, by simp [Ideal.empty]⟩, rfl, by unfold Table.create CAP; simp, le_refl _, rfl,
    by simp [Table.create], by simp [Table.create]⟩
  intro l hl
  unfold Ideal.empty at hl ⊢
  rw [List.mem_replicate] at hl
  rw [hl.2]; rfl

/-- Every append returns and does what it should. -/
theorem Inv.append (h : Inv tys t s u) {chs : List (Chunk α)} (hch : ∀ ch ∈ chs, ch.For tys.length)
    (hsm : (chs.foldl Ideal.append s).rows < 2 ^ 62) : ∃ t', t.append chs = .ok t' ∧ Inv tys t' (chs.foldl Ideal.append s) u := by
  obtain ⟨pre, cur, hi, hcur, hrd, hst, hpre, hpc, hcc, hfull⟩ : ∃ pre cur, t.initAppend = (pre, cur) ∧ GroupOk cur s u cur.count ∧ cur.Ready ∧
      cur.start + cur.count = s.rows ∧ (∀ g ∈ pre, GroupOk g s u g.count ∧ g.count ≤ t.rgSize ∧ g.start + g.count ≤ s.rows) ∧ GChain 0 pre cur.start ∧
      cur.count ≤ t.rgSize ∧ (∀ g ∈ pre, g.count = t.rgSize) := by
    unfold Table.initAppend
    cases hl : t.groups.getLast? with
    | none =>
      rw [List.getLast?_eq_none_iff] at hl
      have hc := h.chain
      rw [hl] at hc
      have hrows : 0 = s.rows := hc
      have := (GroupOk.empty (u := u) (a := 0) h.types h.ok.width (by omega)).initAppend
      rw [h.same]
      exact ⟨[], _, rfl, this.1, this.2, hrows, by simp, rfl, Nat.zero_le _, by simp⟩
    | some g =>
      have hsplit : t.groups = t.groups.dropLast ++ [g] := by
        rw [List.getLast?_eq_some_iff] at hl
        obtain ⟨ys, hys⟩ := hl
        rw [hys]; simp
      have hc := h.chain
      rw [hsplit, gchain_append] at hc
      obtain ⟨m, hc1, hc2, hc3⟩ := hc
      have hg := h.groups g (by rw [hsplit]; simp)
      have := hg.1.initAppend
      refine ⟨_, _, rfl, this.1, this.2, ?_, ?_, ?_, hg.2, h.full⟩
      · have : m + g.count = s.rows := hc3
        show g.start + g.count = _
        omega
      · intro x hx
        have hm : x ∈ t.groups := List.dropLast_subset _ hx
        exact ⟨(h.groups x hm).1, (h.groups x hm).2, (gchain_bounds h.chain x hm).2⟩
      · show GChain 0 _ g.start
        rw [hc2]; exact hc1
  obtain ⟨new, cur', off, r, k1, k2, k3, k4, k5, k6, k7⟩ := appendChunks_ok h.types h.pos chs pre cur cur.count s h.ok hcur hrd hst hcc
    (le_refl _) hch hsm
  obtain ⟨gs, l1, l2, l3, l4, l5⟩ := finalize_ok k3 k5 k6 new cur.start r k2
  rw [k7, Nat.sub_self, Nat.zero_add] at l1
  have hrun : t.append chs = .ok { t with total := t.total + (chs.map Chunk.size).sum, groups := pre ++ gs } := by
    unfold Table.append
    simp only [hi, h.same]
    rw [k1, Res.bind_ok, List.append_assoc, List.drop_left, l1, List.take_left]
    rfl
  refine ⟨_, hrun, h.types, h.same, ok_foldl chs s h.ok hch hsm, ?_, h.pos, h.le, ?_, ?_, ?_⟩
  · rw [rows_foldl, ← h.total]
  · rw [gchain_append, ← k4]
    exact ⟨cur.start, hpc, l2⟩
  · intro g hg
    simp only at hg ⊢
    rw [List.dropLast_append_of_ne_nil l5, List.mem_append] at hg
    rcases hg with hg | hg
    · exact hfull g hg
    · exact l4 g hg
  · intro g hg
    simp only at hg ⊢
    rw [List.mem_append] at hg
    rcases hg with hg | hg
    · obtain ⟨h1, h2, h3⟩ := hpre g hg
      exact ⟨stable_foldl chs s h.ok hch hsm h3 h1, h2⟩
    · exact l3 g hg

end Verif.Table
