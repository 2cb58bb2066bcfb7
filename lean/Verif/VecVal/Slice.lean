import Verif.VecVal.SliceModel
import Verif.VecVal.Lemmas
namespace Verif.VecVal
open Res

theorem pick_ok {sel : List Nat} {i r : Nat} : pick sel i = .ok r ↔ sel[i]? = some r := by
  simp only [pick]
  cases h : sel[i]? <;> simp

theorem compose_spec (old : List Nat) (sel : Option (List Nat)) : ∀ n, (∀ i, i < n → ∃ p r, pick? sel i = .ok p ∧ pick old p = .ok r) →
    ∃ s, compose old sel n = .ok s ∧ s.length = n ∧ ∀ i, i < n → ∀ p r, pick? sel i = .ok p → pick old p = .ok r → s[i]? = some r
  | 0, _ => ⟨[], rfl, rfl, fun i h => absurd h (Nat.not_lt_zero i)⟩
  | n + 1, h => by
    obtain ⟨s, h1, h2, h3⟩ := compose_spec old sel n fun i hi => h i (by omega)
    obtain ⟨p, r, hp, hr⟩ := h n (by omega)
    refine ⟨s ++ [r], by simp only [compose]; rw [bindOk _ h1, bindOk _ hp, bindOk _ hr], by simp [h2], ?_⟩
    intro i hi p' r' hp' hr'
    by_cases e : i = n
    · subst e
      rw [hp] at hp'; injection hp' with hp'; subst hp'
      rw [hr] at hr'; injection hr' with hr'; subst hr'
      rw [← h2]; simp
    · rw [List.getElem?_append_left (by omega)]; exact h3 i (by omega) p' r' hp' hr'

mutual
/-- The indexes of a slice are enough for `n` rows, at every level. -/
def Wide : (t : Ty) → View t → Nat → Prop
  | .leaf _, v, n => ∀ old, v.sel = some old → n ≤ old.length
  | .list _, v, n => ∀ old, v.sel = some old → n ≤ old.length
  | .array _ _, v, n => ∀ old, v.sel = some old → n ≤ old.length
  | .struct ts, v, n => (∀ old, v.sel = some old → n ≤ old.length) ∧ Wides ts v.base.children n
def Wides : (ts : List Ty) → Views ts → Nat → Prop
  | [], _, _ => True
  | t :: ts, v, n => Wide t v.1 n ∧ Wides ts v.2 n
end

mutual
theorem wide_flat : (t : Ty) → (v : Vec t) → (n : Nat) → Wide t (flat t v) n
  | .leaf _, v, n => by simp only [flat, Wide]; exact nofun
  | .list _, v, n => by simp only [flat, Wide]; exact nofun
  | .array _ _, v, n => by simp only [flat, Wide]; exact nofun
  | .struct ts, v, n => by simp only [flat, Wide]; exact ⟨nofun, wides_flats ts v.children n⟩
theorem wides_flats : (ts : List Ty) → (v : Vecs ts) → (n : Nat) → Wides ts (flats ts v) n
  | [], _, _ => by simp only [Wides]
  | t :: ts, v, n => by simp only [flats, Wides]; exact ⟨wide_flat t v.1 n, wides_flats ts v.2 n⟩
end

/-- A slice by indexes below the number of rows there were. -/
theorem Dict.slice_spec {V : Type} (d : Dict V) (valid : Nat → Bool) {sel : List Nat} {m : Nat} (hw : ∀ old, d.sel = some old → m ≤ old.length)
    (hs : ∀ r ∈ sel, r < m) : ∃ w, d.slice valid sel sel.length = .ok w ∧ w.base = d.base ∧ w.mask valid = d.mask valid ∧
      (∀ old, w.sel = some old → sel.length ≤ old.length) ∧ ∀ i p, sel[i]? = some p → w.row i = d.row p := by
  cases hd : d.sel with
  | none =>
    refine ⟨⟨valid, some sel, d.base⟩, by simp only [Dict.slice, hd], rfl, by simp only [Dict.mask, hd], ?_, ?_⟩
    · intro old h; injection h with h; subst h; exact Nat.le_refl _
    · intro i p hp; simp only [Dict.row, hd]; exact pick_ok.2 hp
  | some old =>
    have hr : ∀ i, i < sel.length → ∃ p r, pick? (some sel) i = .ok p ∧ pick old p = .ok r := by
      intro i hi
      refine ⟨sel[i], ?_⟩
      have hm := hs _ (List.getElem_mem hi)
      have := hw old hd
      exact ⟨old[sel[i]], pick_ok.2 (List.getElem?_eq_getElem hi), pick_ok.2 (List.getElem?_eq_getElem (by omega))⟩
    obtain ⟨s, h1, h2, h3⟩ := compose_spec old (some sel) sel.length hr
    refine ⟨{ d with sel := some s }, by simp only [Dict.slice, hd]; rw [bindOk _ h1], rfl, by simp only [Dict.mask, hd], ?_, ?_⟩
    · intro o h; injection h with h; subst h; omega
    · intro i p hp
      have hi : i < sel.length := (List.getElem?_eq_some_iff.1 hp).1
      obtain ⟨p', r, hp', hr'⟩ := hr i hi
      have e : p' = p := by
        have := pick_ok.1 hp'; rw [hp] at this; injection this with this; exact this.symm
      subst e
      simp only [Dict.row, hd]
      rw [hr']; exact pick_ok.2 (h3 i hi p' r hp' hr')

mutual
theorem slice_spec : (t : Ty) → ∀ {v : View t} {sel : List Nat} {m : Nat}, Wide t v m → (∀ r ∈ sel, r < m) →
    ∃ w, slice t v sel sel.length = .ok w ∧ Wide t w sel.length ∧ ∀ i p, sel[i]? = some p → view t w i = view t v p
  | .leaf k, v, sel, m, hw, hs => by
    simp only [Wide] at hw
    obtain ⟨w, h1, h2, h3, h4, h5⟩ := Dict.slice_spec v v.base.valid hw hs
    refine ⟨w, by simp only [slice, h1], by simp only [Wide]; exact h4, fun i p hp => ?_⟩
    simp only [view, h5 i p hp, h2, h3]
  | .list t, v, sel, m, hw, hs => by
    simp only [Wide] at hw
    obtain ⟨w, h1, h2, h3, h4, h5⟩ := Dict.slice_spec v v.base.rows.valid hw hs
    refine ⟨w, by simp only [slice, h1], by simp only [Wide]; exact h4, fun i p hp => ?_⟩
    simp only [view, h5 i p hp, h2, h3]
  | .array t n, v, sel, m, hw, hs => by
    simp only [Wide] at hw
    obtain ⟨w, h1, h2, h3, h4, h5⟩ := Dict.slice_spec v v.base.valid hw hs
    refine ⟨w, by simp only [slice, h1], by simp only [Wide]; exact h4, fun i p hp => ?_⟩
    simp only [view, h5 i p hp, h2, h3]
  | .struct ts, v, sel, m, hw, hs => by
    simp only [Wide] at hw
    obtain ⟨w, h1, h2, h3, h4, h5⟩ := Dict.slice_spec v v.base.valid hw.1 hs
    obtain ⟨c, k1, k2, k3⟩ := slices_spec ts hw.2 hs
    refine ⟨{ w with base := { w.base with children := c } }, by simp only [slice]; rw [bindOk _ k1, bindOk _ h1],
      by simp only [Wide]; exact ⟨h4, k2⟩, fun i p hp => ?_⟩
    have e1 : Dict.row { w with base := { w.base with children := c } } i = v.row p := h5 i p hp
    have e2 : Dict.mask { w with base := { w.base with children := c } } w.base.valid = v.mask v.base.valid := by rw [← h3, h2]; rfl
    simp only [view]
    rw [e1, e2, k3 i p hp]
theorem slices_spec : (ts : List Ty) → ∀ {v : Views ts} {sel : List Nat} {m : Nat}, Wides ts v m → (∀ r ∈ sel, r < m) →
    ∃ w, slices ts v sel sel.length = .ok w ∧ Wides ts w sel.length ∧ ∀ i p, sel[i]? = some p → views ts w i = views ts v p
  | [], v, sel, m, _, _ => ⟨(), by simp only [slices], by simp only [Wides], fun i p _ => by simp only [views]⟩
  | t :: ts, v, sel, m, hw, hs => by
    simp only [Wides] at hw
    obtain ⟨a, h1, h2, h3⟩ := slice_spec t hw.1 hs
    obtain ⟨b, k1, k2, k3⟩ := slices_spec ts hw.2 hs
    exact ⟨(a, b), by simp only [slices]; rw [bindOk _ h1, bindOk _ k1], by simp only [Wides]; exact ⟨h2, k2⟩,
      fun i p hp => by simp only [views, h3 i p hp, k3 i p hp]⟩
end

mutual
theorem view_flat : (t : Ty) → (v : Vec t) → (i : Nat) → view t (flat t v) i = get t v i
  | .leaf _, v, i => by simp only [flat, view, Dict.row, Dict.mask, Res.bind]
  | .list _, v, i => by simp only [flat, view, Dict.row, Dict.mask, Res.bind]
  | .array _ _, v, i => by simp only [flat, view, Dict.row, Dict.mask, Res.bind]
  | .struct ts, v, i => by
    simp only [flat, view, Dict.row, Dict.mask, views_flats ts v.children i, get]
    rfl
theorem views_flats : (ts : List Ty) → (v : Vecs ts) → (i : Nat) → views ts (flats ts v) i = gets ts v i
  | [], _, _ => by simp only [views, gets]
  | t :: ts, v, i => by simp only [flats, views, gets, view_flat t v.1 i, views_flats ts v.2 i]
end

/-! ### What can be copied -/

mutual
/-- A row of a view can be copied: it and all that belongs to it is there. -/
def VOk : (t : Ty) → View t → Nat → Prop
  | .leaf k, v, i => ∃ r, v.row i = .ok r ∧ v.mask v.base.valid r = v.base.valid r ∧ Live (.leaf k) v.base r
  | .list t, v, i => ∃ r, v.row i = .ok r ∧ v.mask v.base.rows.valid r = v.base.rows.valid r ∧ Live (.list t) v.base r ∧ ∃ c, Fits t v.base.child c
  | .array t n, v, i => ∃ r, v.row i = .ok r ∧ v.mask v.base.valid r = v.base.valid r ∧ Live (.array t n) v.base r
  | .struct ts, v, i => (∃ r, v.row i = .ok r ∧ v.mask v.base.valid r = v.base.valid r) ∧ VOks ts v.base.children i
def VOks : (ts : List Ty) → Views ts → Nat → Prop
  | [], _, _ => True
  | t :: ts, v, i => VOk t v.1 i ∧ VOks ts v.2 i
end

mutual
theorem vok_flat : (t : Ty) → (v : Vec t) → (c i : Nat) → Fits t v c → Live t v i → VOk t (flat t v) i
  | .leaf k, v, c, i, _, hl => by simp only [flat, VOk, Dict.row, Dict.mask]; exact ⟨i, rfl, trivial, hl⟩
  | .list t, v, c, i, hf, hl => by
    simp only [Fits] at hf
    simp only [flat, VOk, Dict.row, Dict.mask]; exact ⟨i, rfl, trivial, hl, _, hf.2.1⟩
  | .array t n, v, c, i, _, hl => by simp only [flat, VOk, Dict.row, Dict.mask]; exact ⟨i, rfl, trivial, hl⟩
  | .struct ts, v, c, i, hf, hl => by
    simp only [Fits] at hf
    simp only [Live] at hl
    simp only [flat, VOk, Dict.row, Dict.mask]; exact ⟨⟨i, rfl, trivial⟩, voks_flats ts v.children c i hf hl⟩
theorem voks_flats : (ts : List Ty) → (v : Vecs ts) → (c i : Nat) → Fitss ts v c → Lives ts v i → VOks ts (flats ts v) i
  | [], _, _, _, _, _ => by simp only [VOks]
  | t :: ts, v, c, i, hf, hl => by
    simp only [Fitss] at hf
    simp only [Lives] at hl
    simp only [flats, VOks]; exact ⟨vok_flat t v.1 c i hf.1 hl.1, voks_flats ts v.2 c i hf.2 hl.2⟩
end

/-- The rows a slice picks can be copied if the rows of the original can. -/
theorem Dict.vok_slice {V : Type} {d w : Dict V} {valid : Nat → Bool} {sel : List Nat} {n : Nat} (h : d.slice valid sel n = .ok w) :
    w.base = d.base ∧ w.mask valid = d.mask valid := by
  cases hd : d.sel with
  | none => simp only [Dict.slice, hd] at h; injection h with h; subst h; exact ⟨rfl, by simp only [Dict.mask, hd]⟩
  | some old =>
    simp only [Dict.slice, hd] at h
    cases hc : compose old (some sel) n with
    | ok s => rw [bindOk _ hc] at h; injection h with h; subst h; exact ⟨rfl, by simp only [Dict.mask, hd]⟩
    | throws => rw [hc] at h; exact nomatch h
    | ub => rw [hc] at h; exact nomatch h
    | diverges => rw [hc] at h; exact nomatch h

mutual
theorem vok_slice : (t : Ty) → ∀ {v : View t} {sel : List Nat} {m : Nat}, Wide t v m → (∀ r ∈ sel, r < m) →
    ∃ w, slice t v sel sel.length = .ok w ∧ ∀ i p, sel[i]? = some p → VOk t v p → VOk t w i
  | .leaf k, v, sel, m, hw, hs => by
    simp only [Wide] at hw
    obtain ⟨w, h1, h2, h3, h4, h5⟩ := Dict.slice_spec v v.base.valid hw hs
    refine ⟨w, by simp only [slice, h1], fun i p hp hv => ?_⟩
    simp only [VOk] at hv ⊢
    rw [h5 i p hp, h2, h3]; exact hv
  | .list t, v, sel, m, hw, hs => by
    simp only [Wide] at hw
    obtain ⟨w, h1, h2, h3, h4, h5⟩ := Dict.slice_spec v v.base.rows.valid hw hs
    refine ⟨w, by simp only [slice, h1], fun i p hp hv => ?_⟩
    simp only [VOk] at hv ⊢
    rw [h5 i p hp, h2, h3]; exact hv
  | .array t n, v, sel, m, hw, hs => by
    simp only [Wide] at hw
    obtain ⟨w, h1, h2, h3, h4, h5⟩ := Dict.slice_spec v v.base.valid hw hs
    refine ⟨w, by simp only [slice, h1], fun i p hp hv => ?_⟩
    simp only [VOk] at hv ⊢
    rw [h5 i p hp, h2, h3]; exact hv
  | .struct ts, v, sel, m, hw, hs => by
    simp only [Wide] at hw
    obtain ⟨w, h1, h2, h3, h4, h5⟩ := Dict.slice_spec v v.base.valid hw.1 hs
    obtain ⟨c, k1, k2⟩ := voks_slices ts hw.2 hs
    refine ⟨{ w with base := { w.base with children := c } }, by simp only [slice]; rw [bindOk _ k1, bindOk _ h1], fun i p hp hv => ?_⟩
    have e1 : Dict.row { w with base := { w.base with children := c } } i = v.row p := h5 i p hp
    have e2 : Dict.mask { w with base := { w.base with children := c } } w.base.valid = v.mask v.base.valid := by rw [← h3, h2]; rfl
    simp only [VOk] at hv ⊢
    rw [e1, e2, h2]
    exact ⟨hv.1, k2 i p hp hv.2⟩
theorem voks_slices : (ts : List Ty) → ∀ {v : Views ts} {sel : List Nat} {m : Nat}, Wides ts v m → (∀ r ∈ sel, r < m) →
    ∃ w, slices ts v sel sel.length = .ok w ∧ ∀ i p, sel[i]? = some p → VOks ts v p → VOks ts w i
  | [], v, sel, m, _, _ => ⟨(), by simp only [slices], fun i p _ _ => by simp only [VOks]⟩
  | t :: ts, v, sel, m, hw, hs => by
    simp only [Wides] at hw
    obtain ⟨a, h1, h3⟩ := vok_slice t hw.1 hs
    obtain ⟨b, k1, k3⟩ := voks_slices ts hw.2 hs
    refine ⟨(a, b), by simp only [slices]; rw [bindOk _ h1, bindOk _ k1], fun i p hp hv => ?_⟩
    simp only [VOks] at hv ⊢
    exact ⟨h3 i p hp hv.1, k3 i p hp hv.2⟩
end

/-! ### Copies -/

theorem merge_spec {V : Type} (d : Dict V) (sel : Option (List Nat)) (count : Nat) (Q R : Nat → Nat) (hq : ∀ i, i < count → pick? sel i = .ok (Q i))
    (hr : ∀ i, i < count → d.row (Q i) = .ok (R i)) : ∃ s, d.merge sel count = .ok s ∧ ∀ i, i < count → pick? s i = .ok (R i) := by
  cases hd : d.sel with
  | none =>
    refine ⟨sel, by simp only [Dict.merge, hd], fun i hi => ?_⟩
    have := hr i hi
    simp only [Dict.row, hd] at this
    injection this with this
    rw [hq i hi, this]
  | some old =>
    have hr' : ∀ i, i < count → pick old (Q i) = .ok (R i) := fun i hi => by simpa only [Dict.row, hd] using hr i hi
    obtain ⟨s, h1, h2, h3⟩ := compose_spec old sel count fun i hi => ⟨Q i, R i, hq i hi, hr' i hi⟩
    exact ⟨some s, by simp only [Dict.merge, hd]; rw [bindOk _ h1], fun i hi => pick_ok.2 (h3 i hi _ _ (hq i hi) (hr' i hi))⟩

/-- `f` but for the rows from `toff` on, `n` of them, where it is `g`. -/
def patch {α : Type} (f : Nat → α) (toff n : Nat) (g : Nat → α) : Nat → α := fun j => if toff ≤ j ∧ j < toff + n then g (j - toff) else f j

theorem patch_in {α : Type} {f : Nat → α} {toff n : Nat} {g : Nat → α} {i : Nat} (h : i < n) : patch f toff n g (toff + i) = g i := by
  simp only [patch]; rw [if_pos (by omega)]; congr 1; omega
theorem patch_out {α : Type} {f : Nat → α} {toff n : Nat} {g : Nat → α} {j : Nat} (h : j < toff ∨ toff + n ≤ j) : patch f toff n g j = f j := by
  simp only [patch]; rw [if_neg (by omega)]
theorem patch_succ {α : Type} (f : Nat → α) (toff n : Nat) (g : Nat → α) :
    patch f toff (n + 1) g = fun j => if j = toff + n then g n else patch f toff n g j := by
  funext j
  simp only [patch]
  by_cases h : j = toff + n
  · subst h; rw [if_pos (by omega), if_pos rfl]; congr 1; omega
  · rw [if_neg h]
    by_cases h2 : toff ≤ j ∧ j < toff + n
    · rw [if_pos (by omega), if_pos h2]
    · rw [if_neg (by omega), if_neg h2]
theorem patch_zero {α : Type} (f : Nat → α) (toff : Nat) (g : Nat → α) : patch f toff 0 g = f := by
  funext j; simp only [patch]; rw [if_neg (by omega)]

theorem copyMask_spec (src : Nat → Bool) (sel : Option (List Nat)) (soff toff : Nat) (R : Nat → Nat) (f : Nat → Bool) : ∀ n,
    (∀ i, i < n → pick? sel (soff + i) = .ok (R i)) → copyMask src sel soff toff n f = .ok (patch f toff n fun i => src (R i))
  | 0, _ => by rw [patch_zero]; rfl
  | n + 1, h => by
    simp only [copyMask]
    rw [bindOk _ (copyMask_spec src sel soff toff R f n fun i hi => h i (by omega)), bindOk _ (h n (by omega)), patch_succ]
    rfl

theorem copyRows_spec {α : Type} (src : Rows α) (sel : Option (List Nat)) (soff toff : Nat) (string : Bool) (R : Nat → Nat) (tgt : Rows α) : ∀ n,
    (∀ i, i < n → pick? sel (soff + i) = .ok (R i) ∧ R i < src.cap) → toff + n ≤ tgt.cap →
    copyRows src sel soff toff string n tgt =
      .ok { tgt with data := patch tgt.data toff n fun i => if string && !tgt.valid (toff + i) then tgt.data (toff + i) else src.data (R i) }
  | 0, _, _ => by rw [patch_zero]; rfl
  | n + 1, h, hc => by
    simp only [copyRows]
    rw [bindOk _ (copyRows_spec src sel soff toff string R tgt n (fun i hi => h i (by omega)) (by omega)), bindOk _ (h n (by omega)).1, patch_succ]
    simp only [copyRow]
    by_cases hk : (string && !tgt.valid (toff + n)) = true
    · rw [if_pos hk]
      congr 2
      funext j
      by_cases e : j = toff + n
      · subst e; rw [if_pos rfl, if_pos hk, patch_out (Or.inr (Nat.le_refl _))]
      · rw [if_neg e]
    · rw [if_neg hk, if_pos ⟨(h n (by omega)).2, by omega⟩]
      congr 2
      funext j
      by_cases e : j = toff + n
      · subst e; rw [if_pos rfl, if_pos rfl, if_neg hk]
      · rw [if_neg e, if_neg e]
/-- How many elements the first lists have. -/
def total (L : Nat → Nat) : Nat → Nat
  | 0 => 0
  | n + 1 => total L n + L n

theorem total_mono (L : Nat → Nat) {i n : Nat} (h : i < n) : total L i + L i ≤ total L n := by
  induction n with
  | zero => omega
  | succ n ih =>
    simp only [total]
    by_cases e : i = n
    · subst e; omega
    · have := ih (by omega); omega

theorem childRows_spec (src : Rows (Nat × Nat)) (f : Nat → Bool) (sel : Option (List Nat)) (soff toff : Nat) (R : Nat → Nat) (E : Nat → Nat × Nat) : ∀ n,
    (∀ i, i < n → pick? sel (soff + i) = .ok (R i) ∧ (f (toff + i) = true → src.read (R i) = .ok (E i))) →
    ∃ rs, childRows src f sel soff toff n = .ok rs ∧ rs.length = total (fun i => if f (toff + i) then (E i).2 else 0) n ∧
      (∀ r ∈ rs, ∃ i, i < n ∧ f (toff + i) = true ∧ (E i).1 ≤ r ∧ r < (E i).1 + (E i).2) ∧
      ∀ i, i < n → f (toff + i) = true → ∀ k, k < (E i).2 → rs[total (fun i => if f (toff + i) then (E i).2 else 0) i + k]? = some ((E i).1 + k)
  | 0, _ => ⟨[], rfl, rfl, nofun, fun i h => absurd h (Nat.not_lt_zero i)⟩
  | n + 1, h => by
    obtain ⟨rs, h1, h2, h3, h4⟩ := childRows_spec src f sel soff toff R E n fun i hi => h i (by omega)
    have hn := h n (by omega)
    by_cases hf : f (toff + n) = true
    · refine ⟨rs ++ (List.range (E n).2).map ((E n).1 + ·), ?_, ?_, ?_, ?_⟩
      · simp only [childRows]
        rw [bindOk _ h1, if_pos hf, bindOk _ hn.1, bindOk _ (hn.2 hf)]
      · simp only [total, List.length_append, List.length_map, List.length_range, h2, hf, if_true]
      · intro r hr
        rcases List.mem_append.1 hr with hr | hr
        · obtain ⟨i, a, b⟩ := h3 r hr
          exact ⟨i, by omega, b⟩
        · obtain ⟨k, hk, rfl⟩ := List.mem_map.1 hr
          have := List.mem_range.1 hk
          exact ⟨n, by omega, hf, by omega, by omega⟩
      · intro i hi hfi k hk
        by_cases e : i = n
        · subst e
          rw [List.getElem?_append_right (by omega), h2]
          simp [hk]
        · have hm := total_mono (fun i => if f (toff + i) then (E i).2 else 0) (show i < n by omega)
          simp only [hfi, if_true] at hm
          rw [List.getElem?_append_left (by omega)]
          exact h4 i (by omega) hfi k hk
    · refine ⟨rs, ?_, ?_, ?_, ?_⟩
      · simp only [childRows]
        rw [bindOk _ h1, if_neg hf]
      · simp only [total, h2, hf]
        rfl
      · intro r hr
        obtain ⟨i, a, b⟩ := h3 r hr
        exact ⟨i, by omega, b⟩
      · intro i hi hfi k hk
        have : i ≠ n := fun e => hf (e ▸ hfi)
        exact h4 i (by omega) hfi k hk

/-- The entry of a list that is copied. -/
def entryAt (f : Nat → Bool) (toff at' : Nat) (E : Nat → Nat × Nat) (i : Nat) : Option (Nat × Nat) :=
  if f (toff + i) = true then some (at' + total (fun i => if f (toff + i) then (E i).2 else 0) i, (E i).2) else none

theorem copyEntries_spec (src : Rows (Nat × Nat)) (sel : Option (List Nat)) (soff toff at' : Nat) (R : Nat → Nat) (E : Nat → Nat × Nat) (tgt : Rows (Nat × Nat)) : ∀ n,
    (∀ i, i < n → pick? sel (soff + i) = .ok (R i) ∧ R i < src.cap ∧ (tgt.valid (toff + i) = true → src.read (R i) = .ok (E i))) → toff + n ≤ tgt.cap →
    copyEntries src sel soff toff at' n tgt = .ok ({ tgt with data := patch tgt.data toff n (entryAt tgt.valid toff at' E) },
      at' + total (fun i => if tgt.valid (toff + i) then (E i).2 else 0) n)
  | 0, _, _ => by rw [patch_zero]; rfl
  | n + 1, h, hc => by
    have hn := h n (by omega)
    simp only [copyEntries]
    rw [bindOk _ (copyEntries_spec src sel soff toff at' R E tgt n (fun i hi => h i (by omega)) (by omega)), bindOk _ hn.1, patch_succ,
      if_pos ⟨hn.2.1, by simp only; omega⟩]
    by_cases hf : tgt.valid (toff + n) = true
    · simp only [hf, if_true, total, entryAt]
      rw [bindOk _ (hn.2.2 hf), Nat.add_assoc]
    · simp only [hf, total, entryAt]
      rfl

/-- What a copy does. -/
structure Copied (t : Ty) (src : View t) (tgt tgt' : Vec t) (c toff n : Nat) (Q : Nat → Nat) : Prop where
  fits : Fits t tgt' c
  keep : ∀ j, (j < toff ∨ toff + n ≤ j) → Live t tgt j → Live t tgt' j ∧ get t tgt' j = get t tgt j
  new : ∀ i, i < n → Live t tgt' (toff + i) ∧ get t tgt' (toff + i) = view t src (Q i)

structure Copieds (ts : List Ty) (src : Views ts) (tgt tgt' : Vecs ts) (c toff n : Nat) (Q : Nat → Nat) : Prop where
  fits : Fitss ts tgt' c
  keep : ∀ j, (j < toff ∨ toff + n ≤ j) → Lives ts tgt j → Lives ts tgt' j ∧ gets ts tgt' j = gets ts tgt j
  new : ∀ i, i < n → Lives ts tgt' (toff + i) ∧ gets ts tgt' (toff + i) = views ts src (Q i)

theorem le_nextPow2 (v : Nat) : v ≤ nextPow2 v := by
  unfold nextPow2
  split
  · omega
  · have key : v - 1 ≤ (v - 1) := Nat.le_refl _
    simp only
    have k : ∀ x : Nat, v - 1 ≤ x → ∀ m, v - 1 ≤ x ||| (x >>> m) := fun x hx m => Nat.le_trans hx Nat.left_le_or
    have := k _ (k _ (k _ (k _ (k _ (k _ key 1) 2) 4) 8) 16) 32
    omega

theorem reserve_spec (t : Ty) (ht : noArray t = true) (l : Lists (Vec t)) (need : Nat) (hf : Fits t l.child l.ccap) (hc : 0 < l.ccap) :
    ∃ l' : Lists (Vec t), reserve (resize t) l need = .ok l' ∧ Fits t l'.child l'.ccap ∧ need ≤ l'.ccap ∧ 0 < l'.ccap ∧
      ∀ j, j < l.ccap → Live t l.child j → Live t l'.child j ∧ get t l'.child j = get t l.child j := by
  simp only [reserve]
  by_cases h : need ≤ l.ccap
  · exact ⟨l, by rw [if_pos h], hf, h, hc, fun j _ hl => ⟨hl, rfl⟩⟩
  · have hp := le_nextPow2 need
    obtain ⟨v, hv, hg⟩ := resize_spec t ht hf hc (Nat.le_refl _) (show l.ccap ≤ nextPow2 need by omega) (fun e => e)
    exact ⟨_, by rw [if_neg h, bindOk _ hv], hg.fits, hp, by simp only; omega, fun j hj hl => hg.keep j hj hl⟩

mutual
theorem copy_spec : (t : Ty) → plain t = true → noArray t = true → ∀ (src : View t) (tgt : Vec t) (sel : Option (List Nat)) (count soff toff n c : Nat) (Q : Nat → Nat),
    (∀ i, i < count → pick? sel i = .ok (Q i) ∧ VOk t src (Q i)) → soff + n ≤ count → Fits t tgt c → 0 < c → toff + n ≤ c →
    ∃ tgt', copy t src tgt sel count soff toff n = .ok tgt' ∧ Copied t src tgt tgt' c toff n fun i => Q (soff + i)
  | .leaf k, ht, _, src, tgt, sel, count, soff, toff, n, c, Q, hQ, hcnt, hf, h0, hc => by
    simp only [plain] at ht
    replace ht := usable_handled ht
    simp only [VOk] at hQ
    have hex : ∀ i, ∃ r, i < count → src.row (Q i) = .ok r ∧ src.mask src.base.valid r = src.base.valid r ∧ Live (.leaf k) src.base r := fun i => by
      by_cases hi : i < count
      · obtain ⟨r, hr⟩ := (hQ i hi).2; exact ⟨r, fun _ => hr⟩
      · exact ⟨0, fun h => absurd h hi⟩
    obtain ⟨R, hR⟩ := Classical.axiomOfChoice hex
    obtain ⟨s, hs, hsr⟩ := merge_spec src sel count Q R (fun i hi => (hQ i hi).1) fun i hi => (hR i hi).1
    by_cases hn : n = 0
    · refine ⟨tgt, by simp only [copy]; rw [bindOk _ hs, if_pos hn], hf, fun j _ hl => ⟨hl, rfl⟩, fun i hi => by omega⟩
    have hm := copyMask_spec src.base.valid s soff toff (fun i => R (soff + i)) tgt.valid n fun i hi => hsr _ (by omega)
    simp only [Fits] at hf
    have hlive : ∀ i, i < n → Live (.leaf k) src.base (R (soff + i)) := fun i hi => (hR _ (by omega)).2.2
    have hrow := copyRows_spec src.base s soff toff (k = .string) (fun i => R (soff + i)) { tgt with valid := patch tgt.valid toff n fun i => src.base.valid (R (soff + i)) } n
      (fun i hi => ⟨hsr _ (by omega), by have := hlive i hi; simp only [Live] at this; exact this.1⟩) (by simp only; omega)
    refine ⟨_, by simp only [copy]; rw [bindOk _ hs, if_neg hn, bindOk _ hm, if_pos ht]; exact hrow, ?_, ?_, ?_⟩
    · simp only [Fits]; exact hf
    · intro j hj hl
      simp only [Live] at hl ⊢
      simp only [get, Rows.read, patch_out hj]
      exact ⟨hl, trivial⟩
    · intro i hi
      have hl := hlive i hi
      have hr := hR (soff + i) (by omega)
      simp only [Live] at hl ⊢
      simp only [view]
      rw [bindOk _ hr.1]
      simp only [get, Rows.read, patch_in hi, hr.2.1, if_pos hl.1, if_pos (show toff + i < tgt.cap by omega)]
      by_cases hv : src.base.valid (R (soff + i)) = true
      · obtain ⟨a, ha⟩ := hl.2 hv
        simp only [hv, ha, Bool.not_true, Bool.and_false]
        exact ⟨⟨by omega, fun _ => ⟨a, rfl⟩⟩, rfl⟩
      · simp only [hv]
        exact ⟨⟨by omega, nofun⟩, rfl⟩
  | .list t, ht, hna, src, tgt, sel, count, soff, toff, n, c, Q, hQ, hcnt, hf, h0, hc => by
    simp only [plain, Bool.and_eq_true] at ht
    simp only [VOk] at hQ
    have hex : ∀ i, ∃ r, i < count → src.row (Q i) = .ok r ∧ src.mask src.base.rows.valid r = src.base.rows.valid r ∧ Live (.list t) src.base r := fun i => by
      by_cases hi : i < count
      · obtain ⟨r, h1, h2, h3, _⟩ := (hQ i hi).2; exact ⟨r, fun _ => ⟨h1, h2, h3⟩⟩
      · exact ⟨0, fun h => absurd h hi⟩
    obtain ⟨R, hR⟩ := Classical.axiomOfChoice hex
    obtain ⟨s, hs, hsr⟩ := merge_spec src sel count Q R (fun i hi => (hQ i hi).1) fun i hi => (hR i hi).1
    by_cases hn : n = 0
    · refine ⟨tgt, by simp only [copy]; rw [bindOk _ hs, if_pos hn], hf, fun j _ hl => ⟨hl, rfl⟩, fun i hi => by omega⟩
    obtain ⟨cs, hfs⟩ : ∃ c, Fits t src.base.child c := by
      obtain ⟨r, _, _, _, h⟩ := (hQ 0 (by omega)).2; exact h
    have hm := copyMask_spec src.base.rows.valid s soff toff (fun i => R (soff + i)) tgt.rows.valid n fun i hi => hsr _ (by omega)
    simp only [Fits] at hf
    obtain ⟨hf1, hf2, hf3, hf4⟩ := hf
    have hlive : ∀ i, i < n → Live (.list t) src.base (R (soff + i)) := fun i hi => (hR _ (by omega)).2.2
    simp only [Live] at hlive
    have hexE : ∀ i, ∃ e : Nat × Nat, i < n → src.base.rows.valid (R (soff + i)) = true → src.base.rows.data (R (soff + i)) = some e ∧
        ∀ j, e.1 ≤ j → j < e.1 + e.2 → Live t src.base.child j := fun i => by
      by_cases hi : i < n ∧ src.base.rows.valid (R (soff + i)) = true
      · obtain ⟨e, h1, _, h3⟩ := (hlive i hi.1).2 hi.2; exact ⟨e, fun _ _ => ⟨h1, h3⟩⟩
      · exact ⟨(0, 0), fun h1 h2 => absurd ⟨h1, h2⟩ hi⟩
    obtain ⟨E, hE⟩ := Classical.axiomOfChoice hexE
    generalize hfdef : patch tgt.rows.valid toff n (fun i => src.base.rows.valid (R (soff + i))) = f at hm
    have hfin : ∀ i, i < n → f (toff + i) = src.base.rows.valid (R (soff + i)) := fun i hi => by rw [← hfdef]; exact patch_in hi
    have hfout : ∀ j, (j < toff ∨ toff + n ≤ j) → f j = tgt.rows.valid j := fun j hj => by rw [← hfdef]; exact patch_out hj
    have hread : ∀ i, i < n → f (toff + i) = true → src.base.rows.read (R (soff + i)) = .ok (E i) := fun i hi hv => by
      rw [hfin i hi] at hv
      simp only [Rows.read, if_pos (hlive i hi).1, (hE i hi hv).1]
    obtain ⟨rs, k1, k2, k3, k4⟩ := childRows_spec src.base.rows f s soff toff (fun i => R (soff + i)) E n fun i hi => ⟨hsr _ (by omega), hread i hi⟩
    obtain ⟨l, l1, l2, l3, l4, l5⟩ := reserve_spec t hna (Lists.mk tgt.rows tgt.child tgt.ccap tgt.size) (tgt.size + rs.length) hf2 (hf4 h0)
    have hck : ∀ r ∈ rs, Live t src.base.child r := fun r hr => by
      obtain ⟨i, i1, i2, i3, i4⟩ := k3 r hr
      rw [hfin i i1] at i2
      exact (hE i i1 i2).2 r i3 i4
    obtain ⟨w, w1, w2⟩ := copy_spec t ht.1 hna (flat t src.base.child) l.child (some rs) rs.length 0 tgt.size rs.length l.ccap (fun i => rs.getD i 0)
      (fun i hi => by
        have e : rs.getD i 0 = rs[i] := by simp [List.getD, hi]
        rw [e]
        exact ⟨pick_ok.2 (List.getElem?_eq_getElem hi), vok_flat t _ cs _ hfs (hck _ (List.getElem_mem hi))⟩) (by omega) l2 l4 l3
    have hent := copyEntries_spec src.base.rows s soff toff tgt.size (fun i => R (soff + i)) E { tgt.rows with valid := f } n
      (fun i hi => ⟨hsr _ (by omega), (hlive i hi).1, hread i hi⟩) (by simp only; omega)
    have hw : ∀ j, j < tgt.size → Live t tgt.child j → Live t w j ∧ get t w j = get t tgt.child j := fun j hj hl => by
      obtain ⟨a1, a2⟩ := l5 j (by simp only; omega) hl
      obtain ⟨b1, b2⟩ := w2.keep j (Or.inl hj) a1
      exact ⟨b1, by rw [b2]; exact a2⟩
    have hnew : ∀ i, i < n → f (toff + i) = true → ∀ k, k < (E i).2 →
        Live t w (tgt.size + total (fun i => if f (toff + i) then (E i).2 else 0) i + k) ∧
        get t w (tgt.size + total (fun i => if f (toff + i) then (E i).2 else 0) i + k) = get t src.base.child ((E i).1 + k) := fun i hi hv k hk => by
      have h4 := k4 i hi hv k hk
      have hlt := (List.getElem?_eq_some_iff.1 h4).1
      have := w2.new _ hlt
      rw [Nat.zero_add, List.getD_eq_getElem?_getD, h4, view_flat] at this
      rw [Nat.add_assoc]; exact this
    refine ⟨_, by simp only [copy]; rw [bindOk _ hs, if_neg hn, bindOk _ hm, bindOk _ k1, bindOk _ l1, bindOk _ w1, bindOk _ hent], ?_, ?_, ?_⟩
    · simp only [Fits]
      exact ⟨hf1, w2.fits, l3, fun _ => l4⟩
    · intro j hj hl
      simp only [Live] at hl ⊢
      simp only [get, Rows.read, patch_out hj, hfout j hj]
      constructor
      · refine ⟨hl.1, fun h => ?_⟩
        obtain ⟨e, e1, e2, e3⟩ := hl.2 h
        exact ⟨e, e1, by omega, fun k q1 q2 => (hw k (by omega) (e3 k q1 q2)).1⟩
      · by_cases h : tgt.rows.valid j = true
        · obtain ⟨e, e1, e2, e3⟩ := hl.2 h
          simp only [h, if_pos hl.1, e1, Res.bind]
          rw [getFrom_congr (get t) w tgt.child e.2 e.1 fun k q1 q2 => (hw k (by omega) (e3 k q1 q2)).2]
        · simp only [h]
          rfl
    · intro i hi
      have hr := hR (soff + i) (by omega)
      have hm' := total_mono (fun i => if f (toff + i) then (E i).2 else 0) hi
      simp only [Live, view]
      rw [bindOk _ hr.1]
      simp only [get, Rows.read, patch_in hi, hr.2.1, if_pos (hlive i hi).1, if_pos (show toff + i < tgt.rows.cap by omega), entryAt]
      by_cases hv : f (toff + i) = true
      · have hv' := hv
        rw [hfin i hi] at hv'
        simp only [hv, if_true, hv', (hE i hi hv').1, Res.bind] at hm' ⊢
        refine ⟨⟨by omega, fun _ => ⟨_, rfl, by simp only; omega, fun j j1 j2 => ?_⟩⟩, ?_⟩
        · simp only at j1 j2
          have := (hnew i hi hv (j - (tgt.size + total (fun i => if f (toff + i) then (E i).2 else 0) i)) (by omega)).1
          rwa [show tgt.size + total (fun i => if f (toff + i) then (E i).2 else 0) i + (j - (tgt.size + total (fun i => if f (toff + i) then (E i).2 else 0) i)) = j by omega] at this
        · have : ∀ (m a b : Nat), (∀ k, k < m → get t w (a + k) = get t src.base.child (b + k)) → getFrom (get t) w a m = getFrom (get t) src.base.child b m := by
            intro m
            induction m with
            | zero => intro a b _; rfl
            | succ m ih =>
              intro a b h
              simp only [getFrom]
              rw [ih (a + 1) (b + 1) fun k hk => by
                have := h (k + 1) (by omega)
                rw [show a + 1 + k = a + (k + 1) by omega, show b + 1 + k = b + (k + 1) by omega]; exact this]
              have := h 0 (by omega)
              rw [Nat.add_zero, Nat.add_zero] at this
              rw [this]
          rw [this _ _ _ fun k hk => (hnew i hi hv k hk).2]
      · have hv' := hv
        rw [hfin i hi] at hv'
        simp only [hv, hv']
        exact ⟨⟨by omega, nofun⟩, rfl⟩
  | .array _ _, _, hna, _, _, _, _, _, _, _, _, _, _, _, _, _, _ => by simp only [noArray] at hna; exact nomatch hna
  | .struct ts, ht, hna, src, tgt, sel, count, soff, toff, n, c, Q, hQ, hcnt, hf, h0, hc => by
    simp only [plain] at ht
    simp only [noArray] at hna
    simp only [VOk] at hQ
    have hex : ∀ i, ∃ r, i < count → src.row (Q i) = .ok r ∧ src.mask src.base.valid r = src.base.valid r := fun i => by
      by_cases hi : i < count
      · obtain ⟨r, hr⟩ := (hQ i hi).2.1; exact ⟨r, fun _ => hr⟩
      · exact ⟨0, fun h => absurd h hi⟩
    obtain ⟨R, hR⟩ := Classical.axiomOfChoice hex
    obtain ⟨s, hs, hsr⟩ := merge_spec src sel count Q R (fun i hi => (hQ i hi).1) fun i hi => (hR i hi).1
    by_cases hn : n = 0
    · refine ⟨tgt, by simp only [copy]; rw [bindOk _ hs, if_pos hn], hf, fun j _ hl => ⟨hl, rfl⟩, fun i hi => by omega⟩
    have hm := copyMask_spec src.base.valid s soff toff (fun i => R (soff + i)) tgt.valid n fun i hi => hsr _ (by omega)
    simp only [Fits] at hf
    obtain ⟨w, hw, hcp⟩ := copies_spec ts ht hna src.base.children tgt.children sel count soff toff n c Q (fun i hi => ⟨(hQ i hi).1, (hQ i hi).2.2⟩) hcnt hf h0 hc
    refine ⟨_, by simp only [copy]; rw [bindOk _ hs, if_neg hn, bindOk _ hm, bindOk _ hw], ?_, ?_, ?_⟩
    · simp only [Fits]; exact hcp.fits
    · intro j hj hl
      simp only [Live] at hl ⊢
      simp only [get, patch_out hj]
      have := hcp.keep j hj hl
      exact ⟨this.1, by rw [this.2]⟩
    · intro i hi
      have hr := hR (soff + i) (by omega)
      have := hcp.new i hi
      simp only [Live]
      refine ⟨this.1, ?_⟩
      simp only [view]
      rw [bindOk _ hr.1]
      simp only [get, patch_in hi, hr.2, this.2]
theorem copies_spec : (ts : List Ty) → plains ts = true → noArrays ts = true → ∀ (src : Views ts) (tgt : Vecs ts) (sel : Option (List Nat)) (count soff toff n c : Nat) (Q : Nat → Nat),
    (∀ i, i < count → pick? sel i = .ok (Q i) ∧ VOks ts src (Q i)) → soff + n ≤ count → Fitss ts tgt c → 0 < c → toff + n ≤ c →
    ∃ tgt', copies ts src tgt sel count soff toff n = .ok tgt' ∧ Copieds ts src tgt tgt' c toff n fun i => Q (soff + i)
  | [], _, _, src, tgt, sel, count, soff, toff, n, c, Q, _, _, _, _, _ => ⟨(), by simp only [copies], by simp only [Fitss], fun j _ _ => by simp only [Lives, gets]; exact ⟨trivial, trivial⟩,
      fun i _ => by simp only [Lives, gets, views]; exact ⟨trivial, trivial⟩⟩
  | t :: ts, ht, hna, src, tgt, sel, count, soff, toff, n, c, Q, hQ, hcnt, hf, h0, hc => by
    simp only [plains, Bool.and_eq_true] at ht
    simp only [noArrays, Bool.and_eq_true] at hna
    simp only [Fitss] at hf
    simp only [VOks] at hQ
    obtain ⟨a, ha, ca⟩ := copy_spec t ht.1 hna.1 src.1 tgt.1 sel count soff toff n c Q (fun i hi => ⟨(hQ i hi).1, (hQ i hi).2.1⟩) hcnt hf.1 h0 hc
    obtain ⟨b, hb, cb⟩ := copies_spec ts ht.2 hna.2 src.2 tgt.2 sel count soff toff n c Q (fun i hi => ⟨(hQ i hi).1, (hQ i hi).2.2⟩) hcnt hf.2 h0 hc
    refine ⟨(a, b), by simp only [copies]; rw [bindOk _ ha, bindOk _ hb], by simp only [Fitss]; exact ⟨ca.fits, cb.fits⟩, ?_, ?_⟩
    · intro j hj hl
      simp only [Lives] at hl ⊢
      obtain ⟨h1, h2⟩ := ca.keep j hj hl.1
      obtain ⟨h3, h4⟩ := cb.keep j hj hl.2
      exact ⟨⟨h1, h3⟩, by simp only [gets, h2, h4]⟩
    · intro i hi
      simp only [Lives]
      obtain ⟨h1, h2⟩ := ca.new i hi
      obtain ⟨h3, h4⟩ := cb.new i hi
      exact ⟨⟨h1, h3⟩, by simp only [gets, views, h2, h4]⟩
end
end Verif.VecVal
