import Mathlib.Tactic.Ring
import Mathlib.Tactic.Linarith
import Mathlib.Data.Nat.Log
/-!
IEEE 754 numbers as the C++ types `float` and `double` hold them (x86-64, gcc): binary32 and binary64, conversion of
integers and subtraction rounded to nearest, ties to even.  Every finite value of both formats is a multiple of
2^-1074, so a finite value is kept as the integer `value * 2^1074`: no rounding happens in the model except where the
hardware rounds.
-/
namespace Verif.Num

/-- A number of either format. -/
inductive FVal where
  | nan | ninf | fin (z : Int) | pinf
deriving DecidableEq, Repr

/-- The value of the bits: `eb` exponent bits, `mb` fraction bits, the least positive number is `2^sh` units. -/
def decode (eb mb sh : Nat) (bits : Nat) : FVal :=
  let neg := bits / 2 ^ (eb + mb) % 2 = 1
  let ex := bits / 2 ^ mb % 2 ^ eb
  let mant := bits % 2 ^ mb
  if ex = 2 ^ eb - 1 then (if mant ≠ 0 then .nan else if neg then .ninf else .pinf)
  else
    let m : Nat := if ex = 0 then mant * 2 ^ sh else (2 ^ mb + mant) * 2 ^ (ex - 1) * 2 ^ sh
    .fin (if neg then -(m : Int) else m)

/-- `float`. -/
def decode32 (b : UInt32) : FVal := decode 8 23 925 b.toNat

/-- `double`. -/
def decode64 (b : UInt64) : FVal := decode 11 52 0 b.toNat

/-- Round a natural number to `p` significant bits, to nearest, ties to even. -/
def rndNat (p n : Nat) : Nat :=
  let e := Nat.log2 n + 1 - p
  let q := n / 2 ^ e
  let r := n % 2 ^ e
  if 2 ^ e < 2 * r ∨ (2 * r = 2 ^ e ∧ q % 2 = 1) then (q + 1) * 2 ^ e else q * 2 ^ e

/-- Round an integer. -/
def rnd (p : Nat) (z : Int) : Int := if z < 0 then -(rndNat p z.natAbs : Int) else rndNat p z.natAbs

/-- One, in the units of `FVal.fin`. -/
def one : Int := 2 ^ 1074

/-- Conversion of an integer to `float` (`p = 24`) or `double` (`p = 53`); integers of at most 128 bits do not
overflow `double`. -/
def ofInt (p : Nat) (z : Int) : FVal := .fin (rnd p z * one)

/-- `<` of two numbers (of one format, or of both: `float` is converted to `double` exactly). -/
def FVal.lt : FVal → FVal → Bool
  | .nan, _ => false
  | _, .nan => false
  | .ninf, .ninf => false
  | .ninf, _ => true
  | .fin _, .ninf => false
  | .fin a, .fin b => decide (a < b)
  | .fin _, .pinf => true
  | .pinf, _ => false

/-! ### rounding -/

theorem rndNat_lower (p n : Nat) (_hn : n ≠ 0) : n / 2 ^ (Nat.log 2 n + 1 - p) * 2 ^ (Nat.log 2 n + 1 - p) ≤ rndNat p n := by
  unfold rndNat
  rw [Nat.log2_eq_log_two]
  simp only
  split
  · exact Nat.mul_le_mul_right _ (Nat.le_succ _)
  · exact Nat.le_refl _

theorem rndNat_upper (p n : Nat) : rndNat p n ≤ (n / 2 ^ (Nat.log 2 n + 1 - p) + 1) * 2 ^ (Nat.log 2 n + 1 - p) := by
  unfold rndNat
  rw [Nat.log2_eq_log_two]
  simp only
  split
  · exact Nat.le_refl _
  · exact Nat.mul_le_mul_right _ (Nat.le_succ _)

theorem pow_log_le_rndNat (p n : Nat) (hp : 0 < p) (hn : n ≠ 0) : 2 ^ Nat.log 2 n ≤ rndNat p n := by
  refine le_trans ?_ (rndNat_lower p n hn)
  set e := Nat.log 2 n + 1 - p with he
  have h1 : 2 ^ Nat.log 2 n ≤ n := Nat.pow_log_le_self 2 hn
  have hle : e ≤ Nat.log 2 n := by omega
  have h2 : 2 ^ Nat.log 2 n = 2 ^ (Nat.log 2 n - e) * 2 ^ e := by rw [← pow_add]; congr 1; omega
  rw [h2]
  refine Nat.mul_le_mul_right _ ?_
  rw [Nat.le_div_iff_mul_le (by positivity), ← h2]
  exact h1

theorem rndNat_le_pow (p n : Nat) (hp : 0 < p) : rndNat p n ≤ 2 ^ (Nat.log 2 n + 1) := by
  refine le_trans (rndNat_upper p n) ?_
  set e := Nat.log 2 n + 1 - p with he
  have h1 : n < 2 ^ (Nat.log 2 n + 1) := Nat.lt_pow_succ_log_self (by omega) n
  have h2 : 2 ^ (Nat.log 2 n + 1) = 2 ^ (Nat.log 2 n + 1 - e) * 2 ^ e := by rw [← pow_add]; congr 1; omega
  rw [h2]
  refine Nat.mul_le_mul_right _ ?_
  show n / 2 ^ e < _
  rw [Nat.div_lt_iff_lt_mul (by positivity), ← h2]
  exact h1

theorem rndNat_zero (p : Nat) : rndNat p 0 = 0 := by
  unfold rndNat
  rw [Nat.log2_eq_log_two]
  simp

/-- Rounding keeps the order. -/
theorem rndNat_mono (p : Nat) (hp : 0 < p) {a b : Nat} (h : a ≤ b) : rndNat p a ≤ rndNat p b := by
  by_cases ha : a = 0
  · rw [ha, rndNat_zero]; exact Nat.zero_le _
  have hb : b ≠ 0 := by omega
  have hlog : Nat.log 2 a ≤ Nat.log 2 b := Nat.log_mono_right h
  by_cases hlt : Nat.log 2 a < Nat.log 2 b
  · calc rndNat p a ≤ 2 ^ (Nat.log 2 a + 1) := rndNat_le_pow p a hp
      _ ≤ 2 ^ Nat.log 2 b := Nat.pow_le_pow_right (by omega) hlt
      _ ≤ rndNat p b := pow_log_le_rndNat p b hp hb
  · have heq : Nat.log 2 a = Nat.log 2 b := by omega
    unfold rndNat
    rw [Nat.log2_eq_log_two, Nat.log2_eq_log_two]
    simp only
    rw [heq]
    set E := 2 ^ (Nat.log 2 b + 1 - p) with hE
    have hq : a / E ≤ b / E := Nat.div_le_div_right h
    have ea := Nat.div_add_mod a E
    have eb := Nat.div_add_mod b E
    by_cases hqq : a / E < b / E
    · split <;> split
      · exact Nat.mul_le_mul_right _ (by omega)
      · exact Nat.mul_le_mul_right _ (by omega)
      · exact Nat.mul_le_mul_right _ (by omega)
      · exact Nat.mul_le_mul_right _ (by omega)
    · have hq2 : a / E = b / E := by omega
      have hr : a % E ≤ b % E := by rw [hq2] at ea; omega
      rw [hq2]
      split
      · rename_i h1
        rw [if_pos]
        rcases h1 with h1 | h1
        · exact Or.inl (by omega)
        · by_cases h2 : 2 * (b % E) = E
          · exact Or.inr ⟨h2, h1.2⟩
          · exact Or.inl (by omega)
      · split
        · exact Nat.mul_le_mul_right _ (by omega)
        · exact Nat.le_refl _

/-- Numbers of at most `p` bits, and `2^p`, are kept. -/
theorem rndNat_exact (p n : Nat) (hp : 0 < p) (h : n ≤ 2 ^ p) : rndNat p n = n := by
  by_cases hlt : n < 2 ^ p
  · by_cases hn : n = 0
    · rw [hn, rndNat_zero]
    have : Nat.log 2 n < p := (Nat.log_lt_iff_lt_pow (by omega) hn).mpr hlt
    unfold rndNat
    rw [Nat.log2_eq_log_two]
    have he : Nat.log 2 n + 1 - p = 0 := by omega
    simp [he, Nat.mod_one]
  · have hn : n = 2 ^ p := by omega
    subst hn
    unfold rndNat
    rw [Nat.log2_eq_log_two]
    have hl : Nat.log 2 (2 ^ p) = p := Nat.log_pow (by omega) p
    have he : Nat.log 2 (2 ^ p) + 1 - p = 1 := by omega
    rw [he]
    simp only [pow_one]
    have hm : 2 ^ p % 2 = 0 := by
      obtain ⟨k, rfl⟩ : ∃ k, p = k + 1 := ⟨p - 1, by omega⟩
      rw [pow_succ]; omega
    rw [hm]
    simp only [Nat.mul_zero]
    rw [if_neg (by omega)]
    have := Nat.div_add_mod (2 ^ p) 2
    omega

theorem rnd_mono (p : Nat) (hp : 0 < p) {a b : Int} (h : a ≤ b) : rnd p a ≤ rnd p b := by
  unfold rnd
  split <;> split
  · have := rndNat_mono p hp (a := b.natAbs) (b := a.natAbs) (by omega)
    omega
  · have h1 : (0 : Int) ≤ (rndNat p a.natAbs : Int) := Int.natCast_nonneg _
    have h2 : (0 : Int) ≤ (rndNat p b.natAbs : Int) := Int.natCast_nonneg _
    omega
  · omega
  · have := rndNat_mono p hp (a := a.natAbs) (b := b.natAbs) (by omega)
    omega

theorem rnd_exact (p : Nat) (z : Int) (hp : 0 < p) (h : z.natAbs ≤ 2 ^ p) : rnd p z = z := by
  unfold rnd
  rw [rndNat_exact p _ hp h]
  split <;> omega

theorem one_pos : 0 < one := by unfold one; positivity

theorem mul_one_lt {a b : Int} : a * one < b * one ↔ a < b := by
  constructor
  · intro h; exact lt_of_mul_lt_mul_right h (le_of_lt one_pos)
  · intro h; exact mul_lt_mul_of_pos_right h one_pos

theorem mul_one_le {a b : Int} (h : a ≤ b) : a * one ≤ b * one := mul_le_mul_of_nonneg_right h (le_of_lt one_pos)

attribute [irreducible] one

/-! ### order -/

theorem FVal.lt_irrefl (a : FVal) : FVal.lt a a = false := by cases a <;> simp [FVal.lt]

theorem FVal.lt_trans {a b c : FVal} (h1 : FVal.lt a b = true) (h2 : FVal.lt b c = true) : FVal.lt a c = true := by
  cases a <;> cases b <;> cases c <;> simp_all [FVal.lt]
  omega

theorem FVal.lt_asymm {a b : FVal} (h1 : FVal.lt a b = true) : FVal.lt b a = false := by
  cases a <;> cases b <;> simp_all [FVal.lt]
  omega

theorem FVal.lt_cotrans {a b : FVal} (c : FVal) (hc : c ≠ .nan) (h1 : FVal.lt a b = true) : FVal.lt a c = true ∨ FVal.lt c b = true := by
  cases a <;> cases b <;> cases c <;> simp_all [FVal.lt]
  omega

theorem ofInt_lt (p : Nat) (a b : Int) : FVal.lt (ofInt p a) (ofInt p b) = decide (rnd p a < rnd p b) := by
  simp only [ofInt, FVal.lt, mul_one_lt]

end Verif.Num
