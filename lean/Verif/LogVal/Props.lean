import Verif.LogVal.Model
/-!
C28: comparison of numbers of different types.  C47: integer arithmetic.
-/
namespace Verif.LogVal

open Verif.Num Verif.PhysKey

/-- The comparison of two numbers. -/
def cmpInt (v w : Int) : Ordering := if v = w then .eq else if v < w then .lt else .gt

/-- The full claim: values of any two integer types, the booleans and the 128-bit ones included, are compared as
numbers. -/
def C28_claim : Prop :=
  ∀ (a b : LV) (v w : Int), (∀ t x, a = .int t x → t.fits x) → (∀ t x, b = .int t x → t.fits x) →
    a.asInt = some v → b.asInt = some w → a.compare b = cmpInt v w

/-- The type two integer types are promoted to. -/
def common (t u : ITy) : ITy :=
  if t.signed = u.signed then (if t.bits < u.bits then u else t)
  else if t.signed then (match max t.bits u.bits with | 8 => .i8 | 16 => .i16 | 32 => .i32 | _ => .i64)
  else (match max t.bits u.bits with | 8 => .i8 | 16 => .i16 | 32 => .i32 | _ => .i64)

theorem promote_common (t u : ITy) : promote (tcode t) (tcode u) = tcode (common t u) := by
  cases t <;> cases u <;> decide

theorem ofCode_tcode (t : ITy) : ofCode (tcode t) = some t := by cases t <;> rfl

theorem tcode_inj {t u : ITy} (h : tcode t = tcode u) : t = u := by cases t <;> cases u <;> simp_all [tcode]

theorem wrap_fits (t : ITy) (v : Int) (h : t.fits v) : wrap t v = v := by
  unfold ITy.fits at h
  unfold wrap
  simp only
  split
  · rename_i hc
    simp only [Bool.and_eq_true, decide_eq_true_eq] at hc
    rw [if_pos hc.1] at h
    cases t <;> simp [ITy.signed, ITy.bits] at h hc ⊢ <;> omega
  · rename_i hc
    simp only [Bool.and_eq_true, decide_eq_true_eq] at hc
    cases t <;> simp [ITy.signed, ITy.bits] at h hc ⊢ <;> omega

theorem cast_int (t c : ITy) (v : Int) (h : c.fits v) : LV.cast (tcode c) (.int t v) = .int c v := by
  unfold LV.cast
  by_cases hc : (LV.int t v).code = tcode c
  · rw [if_pos hc, tcode_inj hc]
  · rw [if_neg hc]
    simp only [LV.asInt]
    have h1 : tcode c ≠ 10 := by cases c <;> decide
    have h2 : tcode c ≠ 23 := by cases c <;> decide
    have h3 : tcode c ≠ 24 := by cases c <;> decide
    have h4 : tcode c ≠ 15 := by cases c <;> decide
    have h5 : tcode c ≠ 31 := by cases c <;> decide
    rw [if_neg h1, if_neg h2, if_neg h3, if_neg h4, if_neg h5, ofCode_tcode]
    show LV.int c (wrap c v) = _
    rw [wrap_fits c v h]

theorem compare_common (t u : ITy) (v w : Int) (hv : (common t u).fits v) (hw : (common t u).fits w) :
    (LV.int t v).compare (.int u w) = cmpInt v w := by
  have numT : ∀ t : ITy, isNumeric (tcode t) = true := by intro t; cases t <;> decide
  unfold LV.compare LV.eq LV.lt cmpInt
  by_cases htu : tcode t = tcode u
  · simp only [LV.code, htu, if_true, eqSame, ltSame, decide_eq_true_eq]
  · simp only [LV.code]
    simp only [htu, if_false, numT, promote_common, cast_int t _ v hv, cast_int u _ w hw, Bool.and_self, if_true, eqSame, ltSame,
      decide_eq_true_eq]

/-- Two values of integer types, whenever the type they are promoted to holds both, are compared as numbers. -/
theorem C28_compare_partial (t u p : ITy) (v w : Int) (hp : promote (tcode t) (tcode u) = tcode p) (hv : p.fits v) (hw : p.fits w) :
    (LV.int t v).compare (.int u w) = cmpInt v w := by
  rw [promote_common] at hp
  have := tcode_inj hp
  subst this
  exact compare_common t u v w hv hw

/-- -5 as 16 bits, 200 as unsigned 8 bits. -/
example : promote (tcode .i16) (tcode .u8) = tcode .i16 ∧ ITy.fits .i16 (-5) ∧ ITy.fits .i16 200 := by decide

/-- Which pairs of types always compare as numbers: those of the same sign, and a signed type with a narrower unsigned
one. -/
theorem C28_types (t u : ITy) : (∀ v w, t.fits v → u.fits w → (LV.int t v).compare (.int u w) = cmpInt v w) ↔
    (t.signed = u.signed ∨ (t.signed = true ∧ u.bits < t.bits) ∨ (u.signed = true ∧ t.bits < u.bits)) := by
  constructor
  · intro h
    by_contra hc
    -- the largest unsigned number against its image
    rcases Bool.eq_false_or_eq_true t.signed with ht | ht
    · have hu : u.signed = false := by
        by_contra hu; exact hc (Or.inl (by rw [ht]; simpa using hu))
      have hb : ¬ u.bits < t.bits := fun hb => hc (Or.inr (Or.inl ⟨ht, hb⟩))
      cases t <;> simp [ITy.signed] at ht <;> cases u <;> simp [ITy.signed] at hu <;> simp [ITy.bits] at hb
      · exact absurd (h (-1) (2 ^ 8 - 1) (by decide) (by decide)) (by decide +kernel)
      · exact absurd (h (-1) (2 ^ 16 - 1) (by decide) (by decide)) (by decide +kernel)
      · exact absurd (h (-1) (2 ^ 32 - 1) (by decide) (by decide)) (by decide +kernel)
      · exact absurd (h (-1) (2 ^ 64 - 1) (by decide) (by decide)) (by decide +kernel)
      · exact absurd (h (-1) (2 ^ 16 - 1) (by decide) (by decide)) (by decide +kernel)
      · exact absurd (h (-1) (2 ^ 32 - 1) (by decide) (by decide)) (by decide +kernel)
      · exact absurd (h (-1) (2 ^ 64 - 1) (by decide) (by decide)) (by decide +kernel)
      · exact absurd (h (-1) (2 ^ 32 - 1) (by decide) (by decide)) (by decide +kernel)
      · exact absurd (h (-1) (2 ^ 64 - 1) (by decide) (by decide)) (by decide +kernel)
      · exact absurd (h (-1) (2 ^ 64 - 1) (by decide) (by decide)) (by decide +kernel)
    · have hu : u.signed = true := by
        by_contra hu; exact hc (Or.inl (by rw [ht]; simp at hu; exact hu.symm))
      have hb : ¬ t.bits < u.bits := fun hb => hc (Or.inr (Or.inr ⟨hu, hb⟩))
      cases t <;> simp [ITy.signed] at ht <;> cases u <;> simp [ITy.signed] at hu <;> simp [ITy.bits] at hb
      · exact absurd (h (2 ^ 8 - 1) (-1) (by decide) (by decide)) (by decide +kernel)
      · exact absurd (h (2 ^ 16 - 1) (-1) (by decide) (by decide)) (by decide +kernel)
      · exact absurd (h (2 ^ 16 - 1) (-1) (by decide) (by decide)) (by decide +kernel)
      · exact absurd (h (2 ^ 32 - 1) (-1) (by decide) (by decide)) (by decide +kernel)
      · exact absurd (h (2 ^ 32 - 1) (-1) (by decide) (by decide)) (by decide +kernel)
      · exact absurd (h (2 ^ 32 - 1) (-1) (by decide) (by decide)) (by decide +kernel)
      · exact absurd (h (2 ^ 64 - 1) (-1) (by decide) (by decide)) (by decide +kernel)
      · exact absurd (h (2 ^ 64 - 1) (-1) (by decide) (by decide)) (by decide +kernel)
      · exact absurd (h (2 ^ 64 - 1) (-1) (by decide) (by decide)) (by decide +kernel)
      · exact absurd (h (2 ^ 64 - 1) (-1) (by decide) (by decide)) (by decide +kernel)
  · intro h v w hv hw
    refine compare_common t u v w ?_ ?_
    · unfold ITy.fits at *
      cases t <;> cases u <;> simp [ITy.signed, ITy.bits, common] at h hv hw ⊢ <;> omega
    · unfold ITy.fits at *
      cases t <;> cases u <;> simp [ITy.signed, ITy.bits, common] at h hv hw ⊢ <;> omega

/-- Unsigned 200 and signed -56, both of 8 bits, are equal. -/
theorem C28_sign_fails : ¬ C28_claim := by
  intro h
  have := h (.int .u8 200) (.int .i8 (-56)) 200 (-56) (by rintro t x ⟨⟩; decide) (by rintro t x ⟨⟩; decide) rfl rfl
  revert this; decide +kernel

/-- The boolean true and the signed number 1 are not equal: the promoted type does not exist. -/
theorem C28_boolean_fails : ¬ C28_claim := by
  intro h
  have := h (.bool true) (.int .i32 1) 1 1 (by rintro t x ⟨⟩) (by rintro t x ⟨⟩; decide) rfl rfl
  revert this; decide +kernel

/-- A 128-bit number is not equal to itself. -/
theorem C28_huge_fails : ¬ C28_claim := by
  intro h
  have := h (.huge 1) (.huge 1) 1 1 (by rintro t x ⟨⟩) (by rintro t x ⟨⟩) rfl rfl
  revert this; decide +kernel

/-- Nor is a time stamp, nor null, nor infinity. -/
theorem C28_self_fails (u : Nat) (v : Int) : (LV.ts u v).compare (.ts u v) = .gt ∧ LV.na.compare .na = .gt ∧
    (LV.double .pinf).compare (.double .pinf) = .gt := by
  refine ⟨?_, by decide, by decide⟩
  simp [LV.compare, LV.eq, LV.lt, eqSame, ltSame]

/-- Doubles closer than epsilon are equal, and that is not transitive: 0, 3/4 and 3/2 epsilon. -/
theorem C28_epsilon_fails : ∃ a b c : LV, a.compare b = .eq ∧ b.compare c = .eq ∧ a.compare c = .lt :=
  ⟨.double (.fin 0), .double (.fin (3 * 2 ^ 1020)), .double (.fin (6 * 2 ^ 1020)), by decide +kernel, by decide +kernel, by decide +kernel⟩

/-! ### arithmetic -/

/-- The mathematical result. -/
def exact (o : Arith) (a b : Int) : Int := match o with
  | .sum => a + b
  | .subtract => a - b
  | .mult => a * b
  | .divide => a.tdiv b
  | .modulus => a.tmod b

/-- The full claim: the exact result of a representable operation, for all integers. -/
def C47_claim : Prop :=
  ∀ (o : Arith) (t : ITy) (a b : Int), t.fits a → t.fits b →
    LV.arith o (.int t a) (.int t b) = .ok (.int (arithTy t) (exact o a b))

theorem tmod_fits (t : ITy) (a b : Int) (ha : t.fits a) (hb : t.fits b) (h0 : b ≠ 0) : t.fits (a.tmod b) := by
  have h1 := Int.tmod_lt_of_pos a (show 0 < (b.natAbs : Int) by omega)
  unfold ITy.fits at *
  rcases Int.le_total 0 a with h | h
  · have h2 : 0 ≤ a.tmod b := Int.tmod_nonneg b h
    have h3 : a.tmod b ≤ a := by
      have := Int.tmod_add_mul_tdiv a b
      have : a.tmod b = ((a.natAbs % b.natAbs : Nat) : Int) := by
        have := Int.natAbs_tmod a b
        omega
      have := Nat.mod_le a.natAbs b.natAbs
      omega
    split at ha <;> rename_i hs
    · rw [if_pos hs]; constructor
      · have : (0 : Int) < 2 ^ (t.bits - 1) := by positivity
        omega
      · omega
    · rw [if_neg hs]; omega
  · split at ha <;> rename_i hs
    · rw [if_pos hs]
      have : (a.tmod b).natAbs = a.natAbs % b.natAbs := Int.natAbs_tmod a b
      have h2 := Nat.mod_le a.natAbs b.natAbs
      have h3 : a.tmod b ≤ 0 := by
        have := Int.tmod_nonneg b (show 0 ≤ -a by omega)
        rw [Int.neg_tmod] at this
        omega
      have : (0 : Int) < 2 ^ (t.bits - 1) := by positivity
      omega
    · have : a = 0 := by omega
      subst this
      rw [if_neg hs, Int.zero_tmod]
      have : (0 : Int) < 2 ^ t.bits := by positivity
      omega

theorem fits_arithTy (t : ITy) (v : Int) (h : t.fits v) : (arithTy t).fits v := by
  unfold ITy.fits at *
  cases t <;> simp [ITy.signed, ITy.bits, arithTy] at h ⊢ <;> omega

/-- Whenever the exact result (and for a remainder the quotient) is representable in the result's type and the divisor
is not zero, it is what the operation gives. -/
theorem C47_exact_partial (o : Arith) (t : ITy) (a b : Int) (_ha : t.fits a) (_hb : t.fits b)
    (h0 : o = .divide ∨ o = .modulus → b ≠ 0) (hr : (arithTy t).fits (exact o a b)) (hq : o = .modulus → (arithTy t).fits (a.tdiv b)) :
    LV.arith o (.int t a) (.int t b) = .ok (.int (arithTy t) (exact o a b)) := by
  have key : ∀ v, (arithTy t).fits v →
      (if (arithTy t).signed then (if (arithTy t).fits v then Res.ok v else .ub) else .ok (wrap (arithTy t) v)) = .ok v := by
    intro v hv
    rw [if_pos hv, wrap_fits _ v hv, ite_self]
  simp only [LV.arith, if_true]
  cases o with
  | sum => simp only [LogVal.arith]; rw [key (a + b) hr]; rfl
  | subtract => simp only [LogVal.arith]; rw [key (a - b) hr]; rfl
  | mult => simp only [LogVal.arith]; rw [key (a * b) hr]; rfl
  | divide =>
    simp only [LogVal.arith]
    rw [if_neg (h0 (Or.inl rfl)), key (a.tdiv b) hr]; rfl
  | modulus =>
    simp only [LogVal.arith]
    rw [if_neg (h0 (Or.inr rfl)), key _ (hq rfl)]; rfl

/-- Types smaller than 32 bits never overflow, except in the product of two unsigned 16-bit numbers. -/
theorem C47_small (o : Arith) (t : ITy) (a b : Int) (ha : t.fits a) (hb : t.fits b) (ht : t.bits ≤ 16) (hu : ¬ (t = .u16 ∧ o = .mult))
    (h0 : o = .divide ∨ o = .modulus → b ≠ 0) : LV.arith o (.int t a) (.int t b) = .ok (.int .i32 (exact o a b)) := by
  have hty : arithTy t = .i32 := by cases t <;> simp_all [ITy.bits, arithTy]
  have hA : -(2:Int)^16 < a ∧ a < 2 ^ 16 := by
    unfold ITy.fits at ha; cases t <;> simp_all [ITy.signed, ITy.bits] <;> omega
  have hB : -(2:Int)^16 < b ∧ b < 2 ^ 16 := by
    unfold ITy.fits at hb; cases t <;> simp_all [ITy.signed, ITy.bits] <;> omega
  have hdiv : ITy.fits .i32 (a.tdiv b) := by
    have h1 : (a.tdiv b).natAbs = a.natAbs / b.natAbs := Int.natAbs_tdiv a b
    have h2 := Nat.div_le_self a.natAbs b.natAbs
    simp only [ITy.fits, ITy.signed, ITy.bits, if_true]
    omega
  rw [← hty]
  refine C47_exact_partial o t a b ha hb h0 ?_ (fun _ => by rw [hty]; exact hdiv)
  rw [hty]
  cases o with
  | sum => simp only [ITy.fits, ITy.signed, ITy.bits, if_true, exact]; omega
  | subtract => simp only [ITy.fits, ITy.signed, ITy.bits, if_true, exact]; omega
  | mult =>
    simp only [ITy.fits, ITy.signed, ITy.bits, if_true, exact]
    by_cases h16 : t = .u16
    · exact absurd ⟨h16, rfl⟩ hu
    · have hA : -(2:Int)^15 ≤ a ∧ a ≤ 2 ^ 15 := by
        unfold ITy.fits at ha; cases t <;> simp_all [ITy.signed, ITy.bits] <;> omega
      have hB : -(2:Int)^15 ≤ b ∧ b ≤ 2 ^ 15 := by
        unfold ITy.fits at hb; cases t <;> simp_all [ITy.signed, ITy.bits] <;> omega
      have h1 := Int.natAbs_mul a b
      have h2 := Nat.mul_le_mul (show a.natAbs ≤ 2 ^ 15 by omega) (show b.natAbs ≤ 2 ^ 15 by omega)
      rw [← h1] at h2
      omega
  | divide => exact hdiv
  | modulus =>
    rw [← hty]
    exact fits_arithTy t _ (tmod_fits t a b ha hb (h0 (Or.inr rfl)))

example : ITy.fits .i16 (-32768) ∧ LV.arith .mult (.int .i16 (-32768)) (.int .i16 (-32768)) = .ok (.int .i32 1073741824) := by decide +kernel

/-- Overflow of 32 bits, of the product of unsigned 16-bit numbers, division by zero and of the least number by -1 are
undefined. -/
theorem C47_overflow_fails : ¬ C47_claim ∧ LV.arith .sum (.int .i32 (2 ^ 31 - 1)) (.int .i32 1) = .ub ∧
    LV.arith .mult (.int .u16 65535) (.int .u16 65535) = .ub ∧ LV.arith .divide (.int .i64 1) (.int .i64 0) = .ub ∧
    LV.arith .divide (.int .i32 (-2 ^ 31)) (.int .i32 (-1)) = .ub ∧ LV.arith .divide (.int .i32 6) .na = .ub := by
  refine ⟨?_, by decide +kernel, by decide +kernel, by decide +kernel, by decide +kernel, by decide +kernel⟩
  intro h
  have := h .sum .i32 (2 ^ 31 - 1) 1 (by decide) (by decide)
  revert this; decide +kernel

/-- Operands of different types throw, whatever their values. -/
theorem C47_mixed_fails (o : Arith) (t u : ITy) (a b : Int) (h : t ≠ u) : LV.arith o (.int t a) (.int u b) = .throws := by
  simp only [LV.arith]
  rw [if_neg h]

end Verif.LogVal
