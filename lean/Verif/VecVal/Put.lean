import Verif.VecVal.Chunk
/-!
Writing through a slice (C83).
-/
namespace Verif.VecVal
open Res

theorem bindOkIff {α β : Type} {x : Res α} {f : α → Res β} {b : β} : x.bind f = .ok b ↔ ∃ a, x = .ok a ∧ f a = .ok b := by
  cases x <;> simp [Res.bind]

/-- The validity of a vector. -/
def validOf : (t : Ty) → Vec t → Nat → Bool
  | .leaf _, v => v.valid
  | .list _, v => v.rows.valid
  | .array _ _, v => v.valid
  | .struct _, v => v.valid

/-- A vector with another validity. -/
def withMask : (t : Ty) → Vec t → (Nat → Bool) → Vec t
  | .leaf _, v, m => { v with valid := m }
  | .list _, v, m => { v with rows := { v.rows with valid := m } }
  | .array _ _, v, m => { v with valid := m }
  | .struct _, v, m => { v with valid := m }

theorem get_mask (t : Ty) (v : Vec t) (m : Nat → Bool) (r : Nat) :
    get t (withMask t v m) r = if m r then get t (withMask t v fun _ => true) r else .ok (null t) := by
  cases t <;> simp only [withMask, get, null, if_true, Rows.read] <;> rfl

theorem get_valid (t : Ty) (v : Vec t) (r : Nat) :
    get t v r = if validOf t v r then get t (withMask t v fun _ => true) r else .ok (null t) := by
  cases t <;> simp only [withMask, validOf, get, null, if_true, Rows.read] <;> rfl

/-- A slice is read with the validity it was made with. -/
theorem slice_put (t : Ty) (hn : notStruct t = true) (v : Vec t) (sel : List Nat) {w : View t} (hw : slice t (flat t v) sel sel.length = .ok w) :
    (∀ i r, sel[i]? = some r → view t w i = get t (withMask t v (validOf t v)) r) ∧
    ∀ i r x v', sel[i]? = some r → set t v r x = .ok v' → ∃ w', put t w i x = .ok w' ∧
      ∀ (j p : Nat), sel[j]? = some p → view t w' j = get t (withMask t v' (validOf t v)) p := by
  cases t with
  | struct ts => simp [notStruct] at hn
  | leaf k =>
    simp only [slice, flat, Dict.slice] at hw
    injection hw with hw; subst hw
    refine ⟨fun i r h => ?_, fun i r x v' h hs => ⟨⟨v.valid, some sel, v'⟩, ?_, fun j p hp => ?_⟩⟩
    · simp only [view, Dict.row]; rw [bindOk _ (pick_ok.2 h)]; simp only [Dict.mask, withMask, validOf]
    · simp only [put, Dict.row]; rw [bindOk _ (pick_ok.2 h), bindOk _ hs]
    · simp only [view, Dict.row]; rw [bindOk _ (pick_ok.2 hp)]; simp only [Dict.mask, withMask, validOf]
  | list t =>
    simp only [slice, flat, Dict.slice] at hw
    injection hw with hw; subst hw
    refine ⟨fun i r h => ?_, fun i r x v' h hs => ⟨⟨v.rows.valid, some sel, v'⟩, ?_, fun j p hp => ?_⟩⟩
    · simp only [view, Dict.row]; rw [bindOk _ (pick_ok.2 h)]; simp only [Dict.mask, withMask, validOf]
    · simp only [put, Dict.row]; rw [bindOk _ (pick_ok.2 h), bindOk _ hs]
    · simp only [view, Dict.row]; rw [bindOk _ (pick_ok.2 hp)]; simp only [Dict.mask, withMask, validOf]
  | array t n =>
    simp only [slice, flat, Dict.slice] at hw
    injection hw with hw; subst hw
    refine ⟨fun i r h => ?_, fun i r x v' h hs => ⟨⟨v.valid, some sel, v'⟩, ?_, fun j p hp => ?_⟩⟩
    · simp only [view, Dict.row]; rw [bindOk _ (pick_ok.2 h)]; simp only [Dict.mask, withMask, validOf]
    · simp only [put, Dict.row]; rw [bindOk _ (pick_ok.2 h), bindOk _ hs]
    · simp only [view, Dict.row]; rw [bindOk _ (pick_ok.2 hp)]; simp only [Dict.mask, withMask, validOf]

/-- A value read that is not NULL comes from a valid row. -/
theorem valid_of_get {t : Ty} {v : Vec t} {r : Nat} (h : get t v r ≠ .ok (null t)) : validOf t v r = true := by
  rw [get_valid] at h
  cases hv : validOf t v r with
  | true => rfl
  | false => simp [hv] at h

/-- Read with a validity that says the same about the row. -/
theorem get_mask_eq {t : Ty} {v : Vec t} {m : Nat → Bool} {r : Nat} (h : m r = validOf t v r) : get t (withMask t v m) r = get t v r := by
  rw [get_mask, get_valid t v, h]

theorem put_spec (t : Ty) (ht : plain t = true) (hn : notStruct t = true) {v : Vec t} {c : Nat} (hf : Fits t v c) (hl : ∀ r, r < c → Live t v r) {sel : List Nat}
    (hs : ∀ r ∈ sel, r < c) {w : View t} (hw : slice t (flat t v) sel sel.length = .ok w) {i : Nat} (hi : i < sel.length) {x : Val t}
    (hx : Sized t x) (hx0 : x ≠ null t) (h0 : view t w i ≠ .ok (null t)) :
    ∃ w', put t w i x = .ok w' ∧ view t w' i = .ok x ∧ ∀ j, j < sel.length → sel[j]? ≠ sel[i]? → view t w' j = view t w j := by
  have hr := List.getElem?_eq_getElem hi
  generalize sel[i] = r at hr
  have hrc : r < c := hs r (List.mem_of_getElem? hr)
  obtain ⟨v', h1, h2⟩ := set_spec t ht v c r x hf hrc hx
  obtain ⟨a, b⟩ := slice_put t hn v sel hw
  obtain ⟨w', h3, h4⟩ := b i r x v' hr h1
  refine ⟨w', h3, ?_, fun j hj hne => ?_⟩
  · rw [h4 i r hr]
    have e1 : validOf t v r = true := valid_of_get (by rw [a i r hr, get_mask_eq rfl] at h0; exact h0)
    have e2 : validOf t v' r = true := valid_of_get (by rw [h2.read]; intro e; injection e with e; exact hx0 e)
    rw [get_mask_eq (by rw [e1, e2]), h2.read]
  · have hp := List.getElem?_eq_getElem hj
    generalize sel[j] = p at hp
    have hpr : p ≠ r := fun e => hne (by rw [hp, hr, e])
    rw [h4 j p hp, a j p hp, get_mask_eq (v := v) rfl]
    obtain ⟨_, e⟩ := h2.keep p hpr (hl p (hs p (List.mem_of_getElem? hp)))
    rw [get_mask]
    cases hv : validOf t v p with
    | false => rw [get_valid t v, hv]; simp
    | true =>
      cases hv' : validOf t v' p with
      | true => rw [← e, get_valid t v', hv']
      | false =>
        simp only [if_true]
        rw [get_valid t v', hv'] at e
        exfalso
        simp only [Bool.false_eq_true, if_false] at e
        exact get_ne_null e.symm hv
where
  get_ne_null {v : Vec t} {p : Nat} (e : get t v p = .ok (null t)) (hv : validOf t v p = true) : False := by
    cases t with
    | struct ts => simp [notStruct] at hn
    | leaf k =>
      simp only [validOf] at hv
      simp only [get, null, hv, if_true] at e
      by_cases hk : k.handled = true
      · rw [if_pos hk, bindOkIff] at e
        obtain ⟨_, _, e⟩ := e; simp at e
      · rw [if_neg hk] at e; simp at e
    | list t =>
      simp only [validOf] at hv
      simp only [get, null, hv, if_true, bindOkIff] at e
      obtain ⟨_, _, _, _, e⟩ := e; simp at e
    | array t n =>
      simp only [validOf] at hv
      simp only [get, null, hv, if_true, bindOkIff] at e
      obtain ⟨_, _, e⟩ := e; simp at e
end Verif.VecVal
