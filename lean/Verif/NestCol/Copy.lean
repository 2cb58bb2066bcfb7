import Verif.NestCol.Cols
/-! Copies of vectors. -/
namespace Verif.NestCol
open Verif
open Verif.Table

variable {α β : Type} [Inhabited α]

theorem NVec.Has.prim_inv {ty : Ty α} {v : NVec α} (h : v.Has (.prim ty)) : ∃ cs, v = .prim cs := by
  cases v with
  | prim cs => exact ⟨cs, rfl⟩
  | list _ _ => exact h.elim
  | array _ _ _ => exact h.elim
  | struct _ _ => exact h.elim

theorem NVec.Has.list_inv {t : NTy α} {v : NVec α} (h : v.Has (.list t)) :
    ∃ rows c, v = .list rows c ∧ c.Has t ∧ ∀ o n, some (o, n) ∈ rows → o + n ≤ c.len := by
  cases v with
  | prim _ => exact h.elim
  | list rows c => exact ⟨rows, c, rfl, h.1, h.2⟩
  | array _ _ _ => exact h.elim
  | struct _ _ => exact h.elim

theorem NVec.Has.array_inv {k : Nat} {t : NTy α} {v : NVec α} (h : v.Has (.array k t)) :
    ∃ fl c, v = .array k fl c ∧ c.Has t ∧ c.len = fl.length * k := by
  cases v with
  | prim _ => exact h.elim
  | list _ _ => exact h.elim
  | array k' fl c => obtain ⟨rfl, h1, h2⟩ := h; exact ⟨fl, c, rfl, h1, h2⟩
  | struct _ _ => exact h.elim

theorem NVec.Has.struct_inv {ts : NTys α} {v : NVec α} (h : v.Has (.struct ts)) :
    ∃ fl fs, v = .struct fl fs ∧ fs.Has ts fl.length := by
  cases v with
  | prim _ => exact h.elim
  | list _ _ => exact h.elim
  | array _ _ _ => exact h.elim
  | struct fl fs => exact ⟨fl, fs, rfl, h⟩

theorem NVecs.Has.nil_inv {vs : NVecs α} {n : Nat} (h : vs.Has .nil n) : vs = .nil := by
  cases vs with
  | nil => rfl
  | cons _ _ => exact h.elim

theorem NVecs.Has.cons_inv {t : NTy α} {ts : NTys α} {vs : NVecs α} {n : Nat} (h : vs.Has (.cons t ts) n) :
    ∃ v ws, vs = .cons v ws ∧ v.Has t ∧ v.len = n ∧ ws.Has ts n := by
  cases vs with
  | nil => exact h.elim
  | cons v ws => exact ⟨v, ws, rfl, h.1, h.2.1, h.2.2⟩

mutual
theorem Has.blank : ∀ (t : NTy α) (v : NVec α), v.Has t → v.blank.Has t ∧ v.blank.len = 0
  | .prim _, v, h => by obtain ⟨cs, rfl⟩ := h.prim_inv; exact ⟨trivial, rfl⟩
  | .list t, v, h => by
    obtain ⟨rows, c, rfl, h1, _⟩ := h.list_inv
    exact ⟨⟨(Has.blank t c h1).1, by simp⟩, rfl⟩
  | .array k t, v, h => by
    obtain ⟨fl, c, rfl, h1, _⟩ := h.array_inv
    exact ⟨⟨rfl, (Has.blank t c h1).1, by simp [(Has.blank t c h1).2]⟩, rfl⟩
  | .struct ts, v, h => by
    obtain ⟨fl, fs, rfl, h1⟩ := h.struct_inv
    exact ⟨Has.blanks ts fs _ h1, rfl⟩
theorem Has.blanks : ∀ (ts : NTys α) (vs : NVecs α) (n : Nat), vs.Has ts n → vs.blank.Has ts 0
  | .nil, vs, n, h => by rw [h.nil_inv]; exact trivial
  | .cons t ts, vs, n, h => by
    obtain ⟨v, ws, rfl, h1, _, h3⟩ := h.cons_inv
    exact ⟨(Has.blank t v h1).1, (Has.blank t v h1).2, Has.blanks ts ws n h3⟩
end

theorem collect_congr {f g : Nat → Res (NVal α)} {o p n : Nat} (h : ∀ m < n, f (o + m) = g (p + m)) :
    collect f o n = collect g p n := by
  induction n generalizing o p with
  | zero => rfl
  | succ n ih =>
    unfold collect
    have h0 := h 0 (by omega)
    rw [Nat.add_zero, Nat.add_zero] at h0
    rw [h0, ih (o := o + 1) (p := p + 1) fun m hm => by
      have := h (m + 1) (by omega)
      rw [show o + 1 + m = o + (m + 1) by omega, show p + 1 + m = p + (m + 1) by omega, this]]

theorem place_length (base : Nat) (rs : List (Option (Nat × Nat))) : (place base rs).length = rs.length := by
  induction rs generalizing base with
  | nil => rfl
  | cons r rs ih => cases r with
    | none => simp [place, ih]
    | some p => simp [place, ih]

theorem place_none {base : Nat} {rs : List (Option (Nat × Nat))} {j : Nat} (h : rs[j]? = some none) :
    (place base rs)[j]? = some none := by
  induction rs generalizing base j with
  | nil => simp at h
  | cons r rs ih =>
    cases j with
    | zero =>
      simp only [List.getElem?_cons_zero, Option.some.injEq] at h
      subst h
      rfl
    | succ j =>
      simp only [List.getElem?_cons_succ] at h
      cases r with
      | none => simpa [place] using ih h
      | some p => obtain ⟨o, n⟩ := p; simpa [place] using ih h

/-- The place of a copied row and the positions its elements come from. -/
theorem place_some {base : Nat} {rs : List (Option (Nat × Nat))} {j o n : Nat} (h : rs[j]? = some (some (o, n))) :
    ∃ b, (place base rs)[j]? = some (some (base + b, n)) ∧ (∀ m < n, (gather rs)[b + m]? = some (o + m)) := by
  induction rs generalizing base j with
  | nil => simp at h
  | cons r rs ih =>
    cases j with
    | zero =>
      simp only [List.getElem?_cons_zero, Option.some.injEq] at h
      subst h
      refine ⟨0, rfl, ?_⟩
      intro m hm
      simp only [gather, Nat.zero_add]
      rw [List.getElem?_append_left (by simpa using hm)]
      simp [hm]
    | succ j =>
      simp only [List.getElem?_cons_succ] at h
      cases r with
      | none =>
        obtain ⟨b, h1, h2⟩ := ih (base := base) h
        exact ⟨b, by simpa [place] using h1, by simpa [gather] using h2⟩
      | some p =>
        obtain ⟨o', n'⟩ := p
        obtain ⟨b, h1, h2⟩ := ih (base := base + n') h
        refine ⟨n' + b, ?_, ?_⟩
        · simp only [place, List.getElem?_cons_succ, h1]
          congr 3
          omega
        · intro m hm
          simp only [gather]
          rw [List.getElem?_append_right (by simp; omega)]
          have := h2 m hm
          simp only [List.length_range']
          rw [← this]
          congr 1
          omega

theorem gather_mem {rs : List (Option (Nat × Nat))} {i : Nat} (h : i ∈ gather rs) :
    ∃ o n, some (o, n) ∈ rs ∧ o ≤ i ∧ i < o + n := by
  induction rs with
  | nil => simp [gather] at h
  | cons r rs ih =>
    cases r with
    | none =>
      obtain ⟨o, n, h1, h2⟩ := ih h
      exact ⟨o, n, List.mem_cons_of_mem _ h1, h2⟩
    | some p =>
      obtain ⟨o, n⟩ := p
      simp only [gather, List.mem_append, List.mem_range'_1] at h
      rcases h with h | h
      · exact ⟨o, n, by simp, h⟩
      · obtain ⟨o', n', h1, h2⟩ := ih h
        exact ⟨o', n', List.mem_cons_of_mem _ h1, h2⟩

theorem place_mem {base : Nat} {rs : List (Option (Nat × Nat))} {o n : Nat} (h : some (o, n) ∈ place base rs) :
    o + n ≤ base + (gather rs).length := by
  induction rs generalizing base with
  | nil => simp [place] at h
  | cons r rs ih =>
    cases r with
    | none => simp only [place, List.mem_cons, reduceCtorEq, false_or] at h; exact ih h
    | some p =>
      obtain ⟨o', n'⟩ := p
      simp only [place, List.mem_cons, Option.some.injEq, Prod.mk.injEq] at h
      simp only [gather, List.length_append, List.length_range']
      rcases h with ⟨rfl, rfl⟩ | h
      · omega
      · have := ih h; omega

theorem take_mem {l : List β} {idx : List Nat} {xs : List β} (h : take l idx = .ok xs) {x : β} (hx : x ∈ xs) : x ∈ l := by
  obtain ⟨j, hj, rfl⟩ := List.getElem_of_mem hx
  have h2 := take_iff.mp h
  rw [List.forall₂_iff_get] at h2
  have h3 := h2.2 j (by omega) hj
  simp only [List.get_eq_getElem] at h3
  exact List.mem_of_getElem? h3

theorem take_get {l : List β} {idx : List Nat} {xs : List β} (h : take l idx = .ok xs) {j i : Nat} (hi : idx[j]? = some i) :
    xs[j]? = l[i]? := by
  have h2 := take_iff.mp h
  rw [List.forall₂_iff_get] at h2
  obtain ⟨hj, rfl⟩ := List.getElem?_eq_some_iff.mp hi
  have h3 := h2.2 j hj (by omega)
  simp only [List.get_eq_getElem] at h3
  rw [h3, List.getElem?_eq_getElem]

/-- What a copy must be: the old rows unchanged, behind them the rows of the source. -/
structure Copied (t : NTy α) (tv sv w : NVec α) (idx : List Nat) : Prop where
  has : w.Has t
  len : w.len = tv.len + idx.length
  old : ∀ i < tv.len, w.value i = tv.value i
  new : ∀ j i, idx[j]? = some i → w.value (tv.len + j) = sv.value i

structure CopiedAll (ts : NTys α) (tv sv w : NVecs α) (n : Nat) (idx : List Nat) : Prop where
  has : w.Has ts (n + idx.length)
  old : ∀ i < n, w.values i = tv.values i
  new : ∀ j i, idx[j]? = some i → w.values (n + j) = sv.values i

mutual
theorem copy_ok : ∀ (t : NTy α) (tv sv : NVec α) (idx : List Nat), tv.Has t → sv.Has t → (∀ i ∈ idx, i < sv.len) →
    t.hasArray = false → t.plainLists → ∃ w, tv.copy sv idx = .ok w ∧ Copied t tv sv w idx
  | .prim ty, tv, sv, idx, ht, hs, hi, _, _ => by
    obtain ⟨t, rfl⟩ := ht.prim_inv
    obtain ⟨s, rfl⟩ := hs.prim_inv
    obtain ⟨xs, hx⟩ := take_total (l := s) hi
    refine ⟨.prim (t ++ xs), by simp [NVec.copy, hx], trivial, by simp [NVec.len, take_length hx], ?_, ?_⟩
    · intro i h
      simp only [NVec.value]
      rw [List.getElem?_append_left h]
    · intro j i h
      simp only [NVec.value, NVec.len]
      rw [List.getElem?_append_right (by omega), Nat.add_sub_cancel_left, take_get hx h]
  | .list t, tv, sv, idx, ht, hs, hi, _, hpl => by
    obtain ⟨tr, tc, rfl, ht1, ht2⟩ := ht.list_inv
    obtain ⟨sr, sc, rfl, hs1, hs2⟩ := hs.list_inv
    obtain ⟨rs, hx⟩ := take_total (l := sr) hi
    have hg : ∀ i ∈ gather rs, i < sc.len := by
      intro i hm
      obtain ⟨o, n, h1, h2, h3⟩ := gather_mem hm
      have := hs2 o n (take_mem hx h1)
      omega
    obtain ⟨c, hc, hcc⟩ := copy_ok t tc sc (gather rs) ht1 hs1 hg hpl.1 hpl.2
    refine ⟨.list (tr ++ place tc.len rs) c, by simp [NVec.copy, hx, hc], ⟨hcc.has, ?_⟩, ?_, ?_, ?_⟩
    · intro o n hm
      rw [hcc.len]
      rcases List.mem_append.mp hm with h | h
      · have := ht2 o n h; omega
      · exact place_mem h
    · simp [NVec.len, place_length, take_length hx]
    · intro i h
      have h : i < tr.length := h
      simp only [NVec.value]
      rw [List.getElem?_append_left h, List.getElem?_eq_getElem h]
      cases hr : tr[i] with
      | none => rfl
      | some p =>
        obtain ⟨o, n⟩ := p
        have := ht2 o n (by rw [← hr]; exact List.getElem_mem h)
        simp only
        rw [collect_congr (g := tc.value) (p := o) fun m hm => hcc.old _ (by omega)]
    · intro j i h
      show (NVec.list _ c).value (tr.length + j) = _
      simp only [NVec.value]
      rw [List.getElem?_append_right (by omega), Nat.add_sub_cancel_left]
      have hg := take_get hx h
      have hj : i < sr.length := hi i (List.mem_of_getElem? h)
      rw [List.getElem?_eq_getElem hj] at hg ⊢
      cases hr : sr[i] with
      | none =>
        rw [hr] at hg
        rw [place_none hg]
      | some p =>
        obtain ⟨o, n⟩ := p
        rw [hr] at hg
        obtain ⟨b, h1, h2⟩ := place_some (base := tc.len) hg
        rw [h1]
        simp only
        rw [collect_congr (g := sc.value) (p := o) fun m hm => by
          rw [Nat.add_assoc]; exact hcc.new _ _ (h2 m hm)]
  | .array k t, tv, sv, idx, _, _, _, ha, _ => by simp [NTy.hasArray] at ha
  | .struct ts, tv, sv, idx, ht, hs, hi, ha, hpl => by
    obtain ⟨tf, tfs, rfl, ht1⟩ := ht.struct_inv
    obtain ⟨sf, sfs, rfl, hs1⟩ := hs.struct_inv
    obtain ⟨xs, hx⟩ := take_total (l := sf) hi
    obtain ⟨w, hw, hwc⟩ := copies_ok ts tfs sfs tf.length sf.length idx ht1 hs1 hi ha hpl
    refine ⟨.struct (tf ++ xs) w, by simp [NVec.copy, hx, hw], ?_, by simp [NVec.len, take_length hx], ?_, ?_⟩
    · show w.Has ts (tf ++ xs).length
      rw [List.length_append, take_length hx]
      exact hwc.has
    · intro i h
      have h : i < tf.length := h
      simp only [NVec.value]
      rw [List.getElem?_append_left h, List.getElem?_eq_getElem h, hwc.old i h]
    · intro j i h
      simp only [NVec.value, NVec.len]
      rw [List.getElem?_append_right (by omega), Nat.add_sub_cancel_left, take_get hx h, hwc.new j i h]
theorem copies_ok : ∀ (ts : NTys α) (tv sv : NVecs α) (n m : Nat) (idx : List Nat), tv.Has ts n → sv.Has ts m →
    (∀ i ∈ idx, i < m) → ts.hasArray = false → ts.plainLists → ∃ w, tv.copy sv idx = .ok w ∧ CopiedAll ts tv sv w n idx
  | .nil, tv, sv, n, m, idx, ht, hs, _, _, _ => by
    rw [ht.nil_inv, hs.nil_inv]
    exact ⟨.nil, rfl, trivial, fun _ _ => rfl, fun _ _ _ => rfl⟩
  | .cons t ts, tv, sv, n, m, idx, ht, hs, hi, ha, hpl => by
    obtain ⟨v, vs, rfl, h1, h2, h3⟩ := ht.cons_inv
    obtain ⟨u, us, rfl, g1, g2, g3⟩ := hs.cons_inv
    simp only [NTys.hasArray, Bool.or_eq_false_iff] at ha
    obtain ⟨w, hw, hwc⟩ := copy_ok t v u idx h1 g1 (by rw [g2]; exact hi) ha.1 hpl.1
    obtain ⟨ws, hws, hwsc⟩ := copies_ok ts vs us n m idx h3 g3 hi ha.2 hpl.2
    refine ⟨.cons w ws, by simp [NVecs.copy, hw, hws], ⟨hwc.has, by rw [hwc.len, h2], hwsc.has⟩, ?_, ?_⟩
    · intro i h
      simp only [NVecs.values]
      rw [hwc.old i (by omega), hwsc.old i h]
    · intro j i h
      simp only [NVecs.values]
      rw [← h2, hwc.new j i h, h2, hwsc.new j i h]
end
end Verif.NestCol
