import Verif.DocVal.Spec
import Verif.DocVal.TapeProps
import Verif.PhysKey.Props
import Verif.LogVal.Props
/-!
C32: comparing documents by a field.  C49: reading a number as another type.
-/
namespace Verif.DocVal

open Verif.Num Verif.PhysKey Verif.LogVal

/-! ### reading -/

/-- The full claim of C49: an integer of any type read as any type is that integer, or refused if it does not fit. -/
def C49_claim : Prop := ∀ (s t : ITy) (v : Int), s.fits v → V.getInt t (.int s v) = readAs t v

/-- The types from which reading is right for every value: all, except signed to narrower unsigned, `int8` to wider
unsigned, and `uint8` to `int8`. -/
def safe (s t : ITy) : Prop :=
  ¬ (s.signed = true ∧ t.signed = false ∧ t.bits < s.bits) ∧ ¬ (s = .i8 ∧ t.signed = false ∧ 8 < t.bits) ∧ ¬ (s = .u8 ∧ t = .i8)

theorem castInt_fits (s t : ITy) (v : Int) (hs : s.fits v) (ht : t.fits v) : castInt s t v = .ok v := by
  unfold castInt
  have hw := wrap_fits t v ht
  by_cases hst : s = t
  · rw [if_pos hst]
  · rw [if_neg hst]
    unfold ITy.fits at hs ht
    cases s <;> cases t <;> simp [ITy.signed, ITy.bits, hw] at hs ht hst ⊢ <;> first | omega | exact if_neg (by omega)

theorem castInt_safe (s t : ITy) (v : Int) (h : safe s t) (hs : s.fits v) (ht : ¬ t.fits v) : castInt s t v = .throws := by
  unfold castInt
  have hst : s ≠ t := by intro e; subst e; exact ht hs
  rw [if_neg hst]
  unfold safe at h
  unfold ITy.fits at hs ht
  cases s <;> cases t <;> simp [ITy.signed, ITy.bits] at h hs ht hst ⊢ <;> first | omega | exact if_pos (by omega)

/-- Reading an integer of type `s` as type `t` gives that integer or an error exactly for the `safe` pairs of types. -/
theorem C49_types (s t : ITy) : (∀ v, s.fits v → V.getInt t (.int s v) = readAs t v) ↔ safe s t := by
  constructor
  · intro h
    unfold safe
    refine ⟨?_, ?_, ?_⟩
    · rintro ⟨h1, h2, h3⟩
      cases s <;> simp [ITy.signed] at h1 <;> cases t <;> simp [ITy.signed] at h2 <;> simp [ITy.bits] at h3
      · exact absurd (h 256 (by decide)) (by decide)
      · exact absurd (h 256 (by decide)) (by decide)
      · exact absurd (h 65536 (by decide)) (by decide)
      · exact absurd (h 256 (by decide)) (by decide)
      · exact absurd (h 65536 (by decide)) (by decide)
      · exact absurd (h 4294967296 (by decide)) (by decide)
    · rintro ⟨h1, h2, h3⟩
      subst h1
      cases t <;> simp [ITy.signed] at h2 <;> simp [ITy.bits] at h3
      · exact absurd (h (-1) (by decide)) (by decide)
      · exact absurd (h (-1) (by decide)) (by decide)
      · exact absurd (h (-1) (by decide)) (by decide)
    · rintro ⟨h1, h2⟩
      subst h1; subst h2
      exact absurd (h 200 (by decide)) (by decide)
  · intro h v hs
    show castInt s t v = readAs t v
    unfold readAs
    by_cases ht : t.fits v
    · rw [if_pos ht, castInt_fits s t v hs ht]
    · rw [if_neg ht, castInt_safe s t v h hs ht]

/-- A number that fits is always read, whatever the two types. -/
theorem C49_fits_partial (s t : ITy) (v : Int) (hs : s.fits v) (ht : t.fits v) : V.getInt t (.int s v) = .ok v := castInt_fits s t v hs ht

example : ITy.fits .i64 200 ∧ ITy.fits .u8 200 := by decide

/-- 300 read as an 8-bit unsigned number is 44, -1 as a 64-bit unsigned number is 2^64 - 1, 200 as an 8-bit signed
number is -56. -/
theorem C49_wrap_fails : ¬ C49_claim ∧ V.getInt .u8 (.int .i32 300) = .ok 44 ∧ V.getInt .u64 (.int .i8 (-1)) = .ok (2 ^ 64 - 1) ∧
    V.getInt .i8 (.int .u8 200) = .ok (-56) := by
  refine ⟨?_, by decide, by decide, by decide⟩
  intro h
  exact absurd (h .i32 .u8 300 (by decide)) (by decide)

/-- Reading 2^64 as a double, or NaN, as a 64-bit integer is undefined. -/
theorem C49_double_fails : V.getInt .u64 (.double 4895412794951729152) = .ub ∧ V.getInt .i64 (.double 9221120237041090560) = .ub := by
  constructor <;> decide +kernel

theorem tdiv_one_lt {z b : Int} (h0 : 0 ≤ z) (h : z < b * one) : z.tdiv one < b := by
  rw [Int.tdiv_eq_ediv_of_nonneg h0]
  exact Int.ediv_lt_of_lt_mul Num.one_pos h

theorem neg_tdiv_one {z b : Int} (h0 : z ≤ 0) (h : -b * one ≤ z) : -b ≤ z.tdiv one := by
  have h1 : (-z).tdiv one ≤ b := by
    rw [Int.tdiv_eq_ediv_of_nonneg (by omega)]
    apply Int.ediv_le_of_le_mul Num.one_pos
    linarith
  rw [Int.neg_tdiv] at h1
  omega

theorem tdiv_one_nonneg {z : Int} (h0 : 0 ≤ z) : 0 ≤ z.tdiv one := Int.tdiv_nonneg h0 (le_of_lt Num.one_pos)

theorem tdiv_one_nonpos {z : Int} (h0 : z ≤ 0) : z.tdiv one ≤ 0 := by
  have := tdiv_one_nonneg (show 0 ≤ -z by omega)
  rw [Int.neg_tdiv] at this
  omega

theorem rnd_max (t : ITy) (p : Nat) (hp : p = 24 ∨ p = 53) : rnd p (2 ^ (t.bits - 1) - 1) ≥ 2 ^ (t.bits - 1) - 1 := by
  rcases hp with rfl | rfl <;> cases t <;> decide +kernel

/-- A floating point number between the least and the greatest of an integer type is read as that type, rounded towards
zero. -/
theorem C49_float_partial (p : Nat) (hp : p = 24 ∨ p = 53) (t : ITy) (z : Int)
    (h : if t.signed then -2 ^ (t.bits - 1) * one ≤ z ∧ z ≤ (2 ^ (t.bits - 1) - 1) * one else 0 ≤ z ∧ z ≤ (2 ^ t.bits - 1) * one) :
    ofFloat p t (.fin z) = .ok (z.tdiv one) := by
  have fit : t.fits (z.tdiv one) := by
    unfold ITy.fits
    split at h <;> rename_i hs
    · rw [if_pos hs]
      rcases Int.le_total 0 z with h0 | h0
      · have h1 := tdiv_one_nonneg h0
        have h2 : z.tdiv one < 2 ^ (t.bits - 1) := by
          apply tdiv_one_lt h0
          refine lt_of_le_of_lt h.2 (mul_one_lt.mpr (by omega))
        have : (0 : Int) ≤ 2 ^ (t.bits - 1) := by positivity
        omega
      · have h1 := tdiv_one_nonpos h0
        have h2 := neg_tdiv_one h0 h.1
        have : (0 : Int) < 2 ^ (t.bits - 1) := by positivity
        omega
    · rw [if_neg hs]
      refine ⟨tdiv_one_nonneg h.1, tdiv_one_lt h.1 (lt_of_le_of_lt h.2 (mul_one_lt.mpr (by omega)))⟩
  simp only [ofFloat]
  split at h <;> rename_i hs
  · rw [if_pos hs, if_neg, if_pos fit]
    rintro (h1 | h1)
    · have := mul_one_le (rnd_max t p hp)
      omega
    · omega
  · rw [if_neg hs, if_neg (by omega), if_pos fit]

example : (if ITy.i8.signed then -2 ^ (ITy.i8.bits - 1) * one ≤ 3 * one ∧ 3 * one ≤ (2 ^ (ITy.i8.bits - 1) - 1) * one else False) := by
  simp only [ITy.signed, ITy.bits, if_true]
  exact ⟨mul_one_le (by norm_num), mul_one_le (by norm_num)⟩

/-! ### comparison -/

/-- The full claim of C32: any field of any documents can be compared, consistently. -/
def C32_claim : Prop := Ordered (fun c => ∀ v, c = .scalar v → v.valid) compareCell

theorem Ordered.of_lt {α : Type} (S : α → Prop) (cmp : α → α → Res Ordering) (lt : α → α → Bool)
    (h : ∀ a b, S a → S b → cmp a b = .ok (by3 lt a b)) (ir : ∀ a, S a → lt a a = false)
    (tr : ∀ a b c, S a → S b → S c → lt a b = true → lt b c = true → lt a c = true)
    (co : ∀ a b c, S a → S b → S c → lt a b = true → lt a c = true ∨ lt c b = true) : Ordered S cmp := by
  have as : ∀ a b, S a → S b → lt a b = true → lt b a = false := by
    intro a b ha hb hab
    by_contra hc
    have := tr a b a ha hb ha hab (by simpa using hc)
    rw [ir a ha] at this
    cases this
  refine ⟨?_, ?_, ?_, ?_⟩
  · intro a ha; rw [h a a ha ha]; simp [by3, ir a ha]
  · intro a b ha hb
    refine ⟨_, h a b ha hb, ?_⟩
    rw [h b a hb ha]
    congr 1
    unfold by3
    by_cases h1 : lt a b = true
    · simp [h1, as a b ha hb h1]
    · by_cases h2 : lt b a = true
      · simp [h1, h2]
      · simp [h1, h2]
  · intro a b c ha hb hc h1 h2
    rw [h a b ha hb] at h1
    rw [h b c hb hc] at h2
    rw [h a c ha hc]
    have e : ∀ x y, by3 lt x y = .lt → lt x y = true := by
      intro x y hxy; unfold by3 at hxy
      by_contra hn
      rw [if_neg hn] at hxy
      split at hxy <;> cases hxy
    have := tr a b c ha hb hc (e _ _ (by injection h1)) (e _ _ (by injection h2))
    simp [by3, this]
  · intro a b c ha hb hc h1
    rw [h a b ha hb] at h1
    rw [h a c ha hc, h b c hb hc]
    have e : lt a b = false ∧ lt b a = false := by
      injection h1 with h1
      unfold by3 at h1
      split at h1
      · cases h1
      · split at h1
        · cases h1
        · rename_i x y; exact ⟨by simpa using x, by simpa using y⟩
    have f1 : lt a c = lt b c := by
      rw [Bool.eq_iff_iff]
      constructor
      · intro hx
        rcases co a c b ha hc hb hx with hy | hy
        · rw [e.1] at hy; cases hy
        · exact hy
      · intro hx
        rcases co b c a hb hc ha hx with hy | hy
        · rw [e.2] at hy; cases hy
        · exact hy
    have f2 : lt c a = lt c b := by
      rw [Bool.eq_iff_iff]
      constructor
      · intro hx
        rcases co c a b hc ha hb hx with hy | hy
        · exact hy
        · rw [e.2] at hy; cases hy
      · intro hx
        rcases co c b a hc hb ha hx with hy | hy
        · exact hy
        · rw [e.1] at hy; cases hy
    unfold by3
    rw [f1, f2]

/-- Strict weak order on the values of a kind. -/
def Kind.lt : Kind → V → V → Bool
  | .ints _, .int _ a, .int _ b => decide (a < b)
  | .bigs, .big a, .big b => decide (a < b)
  | .floats, .float a, .float b => FVal.lt (decode32 a) (decode32 b)
  | .doubles, .double a, .double b => FVal.lt (decode64 a) (decode64 b)
  | .strs, .str a, .str b => bytesLt a b
  | .bools, .bool a, .bool b => !a && b
  | _, _, _ => false

theorem tame_nan {f : FVal} (h : tame f) : f ≠ .nan := by
  rcases h with h | ⟨z, h, _⟩ <;> rw [h] <;> simp

theorem icode_inj {t u : ITy} : icode t = icode u ↔ t = u := by cases t <;> cases u <;> decide

theorem kind_compare (k : Kind) (a b : V) (ha : k.has a) (hb : k.has b) : compareV a b = .ok (by3 k.lt a b) := by
  cases k with
  | ints ts =>
    cases a <;> simp only [Kind.has] at ha
    cases b <;> simp only [Kind.has] at hb
    rename_i t v u w
    have hn : ∀ (t : ITy) (v : Int), (V.int t v).isNumber = .ok true := by
      intro t v
      unfold V.isNumber V.getInt
      have h1 : ∀ s, castInt t s v = .throws ∨ ∃ x, castInt t s v = .ok x := by
        intro s
        unfold castInt
        by_cases hst : t = s
        · rw [if_pos hst]; exact Or.inr ⟨_, rfl⟩
        · rw [if_neg hst]
          split <;> (try exact Or.inr ⟨_, rfl⟩)
          split
          · exact Or.inr ⟨_, rfl⟩
          · split
            · split <;> split <;> first | exact Or.inl rfl | exact Or.inr ⟨_, rfl⟩
            · split <;> split <;> first | exact Or.inl rfl | exact Or.inr ⟨_, rfl⟩
      rcases h1 .i64 with h2 | ⟨x, h2⟩ <;> rcases h1 .u64 with h3 | ⟨y, h3⟩ <;> simp [h2, h3, isT, orElse, Res.bind, V.getDouble]
    have hsame : (if (V.int t v).code = (V.int u w).code then Res.ok true else (V.int t v).isNumber.bind fun n => if n then (V.int u w).isNumber else .ok false) = .ok true := by
      split
      · rfl
      · rw [hn, hn]; rfl
    unfold compareV
    rw [hsame]
    simp only [Res.bind, if_true, compareNum, equals, V.getInt]
    rw [castInt_fits t t v (ha.2 t ha.1) (ha.2 t ha.1), castInt_fits u t w (hb.2 u hb.1) (hb.2 t ha.1)]
    rfl
  | bigs =>
    cases a <;> simp only [Kind.has] at ha
    cases b <;> simp only [Kind.has] at hb
    rfl
  | floats =>
    cases a <;> simp only [Kind.has] at ha
    cases b <;> simp only [Kind.has] at hb
    rfl
  | doubles =>
    cases a <;> simp only [Kind.has] at ha
    cases b <;> simp only [Kind.has] at hb
    rfl
  | strs =>
    cases a <;> simp only [Kind.has] at ha
    cases b <;> simp only [Kind.has] at hb
    rfl
  | bools =>
    cases a <;> simp only [Kind.has] at ha
    cases b <;> simp only [Kind.has] at hb
    rfl

theorem ofFloat_tame (p : Nat) (hp : p = 24 ∨ p = 53) (f : FVal) (h : tame f) :
    (∃ b, isT (ofFloat p .i64 f) = .ok b) ∧ ((∃ b, isT (ofFloat p .u64 f) = .ok b)) := by
  rcases h with rfl | ⟨z, rfl, h1, h2⟩
  · exact ⟨⟨_, rfl⟩, ⟨_, rfl⟩⟩
  · have hr : rnd p (2 ^ (ITy.i64.bits - 1) - 1) = 2 ^ 63 := by rcases hp with rfl | rfl <;> decide +kernel
    constructor
    · simp only [ofFloat, ITy.signed, if_true]
      rw [hr]
      split
      · exact ⟨_, rfl⟩
      · rename_i hc
        simp only [not_or, not_lt] at hc
        rw [if_pos]
        · exact ⟨_, rfl⟩
        · simp only [ITy.fits, ITy.signed, ITy.bits, if_true] at hc ⊢
          rcases Int.le_total 0 z with h0 | h0
          · have := tdiv_one_nonneg h0
            have := tdiv_one_lt h0 (lt_of_le_of_ne hc.1 h2)
            omega
          · have := tdiv_one_nonpos h0
            have := neg_tdiv_one h0 hc.2
            omega
    · simp only [ofFloat, ITy.signed, Bool.false_eq_true, if_false]
      split
      · exact ⟨_, rfl⟩
      · rename_i hc
        rw [if_pos]
        · exact ⟨_, rfl⟩
        · simp only [ITy.fits, ITy.signed, ITy.bits, Bool.false_eq_true, if_false]
          exact ⟨tdiv_one_nonneg (by omega), tdiv_one_lt (by omega) h1⟩

theorem kind_number (k : Kind) (a : V) (ha : k.has a) : ∃ b, a.isNumber = .ok b := by
  have orElse_ok : ∀ x y : Res Bool, (∃ b, x = .ok b) → (∃ b, y = .ok b) → ∃ b, orElse x y = .ok b := by
    rintro x y ⟨b, rfl⟩ ⟨c, rfl⟩
    cases b
    · exact ⟨c, rfl⟩
    · exact ⟨true, rfl⟩
  have isT_ok : ∀ {α : Type} (x : Res α), (x = .throws ∨ ∃ v, x = .ok v) → ∃ b, isT x = .ok b := by
    rintro α x (rfl | ⟨v, rfl⟩)
    · exact ⟨_, rfl⟩
    · exact ⟨_, rfl⟩
  unfold V.isNumber
  cases k with
  | ints ts =>
    cases a <;> simp only [Kind.has] at ha
    rename_i t v
    have h1 : ∀ s, castInt t s v = .throws ∨ ∃ x, castInt t s v = .ok x := by
      intro s
      unfold castInt
      by_cases hst : t = s
      · rw [if_pos hst]; exact Or.inr ⟨_, rfl⟩
      · rw [if_neg hst]
        split <;> (try exact Or.inr ⟨_, rfl⟩)
        split
        · exact Or.inr ⟨_, rfl⟩
        · split
          · split <;> split <;> first | exact Or.inl rfl | exact Or.inr ⟨_, rfl⟩
          · split <;> split <;> first | exact Or.inl rfl | exact Or.inr ⟨_, rfl⟩
    exact orElse_ok _ _ (isT_ok _ (h1 _)) (orElse_ok _ _ (isT_ok _ (h1 _)) (isT_ok _ (Or.inr ⟨_, rfl⟩)))
  | bigs =>
    cases a <;> simp only [Kind.has] at ha
    rename_i v
    have h1 : ∀ s, V.getInt s (.big v) = .throws ∨ ∃ x, V.getInt s (.big v) = .ok x := by
      intro s
      simp only [V.getInt]
      split <;> split <;> first | exact Or.inl rfl | exact Or.inr ⟨_, rfl⟩
    exact orElse_ok _ _ (isT_ok _ (h1 _)) (orElse_ok _ _ (isT_ok _ (h1 _)) (isT_ok _ (Or.inr ⟨_, rfl⟩)))
  | floats =>
    cases a <;> simp only [Kind.has] at ha
    have := ofFloat_tame 24 (Or.inl rfl) _ ha
    exact orElse_ok _ _ this.1 (orElse_ok _ _ this.2 (isT_ok _ (Or.inr ⟨_, rfl⟩)))
  | doubles =>
    cases a <;> simp only [Kind.has] at ha
    have := ofFloat_tame 53 (Or.inr rfl) _ ha
    exact orElse_ok _ _ this.1 (orElse_ok _ _ this.2 (isT_ok _ (Or.inr ⟨_, rfl⟩)))
  | strs =>
    cases a <;> simp only [Kind.has] at ha
    exact ⟨false, rfl⟩
  | bools =>
    cases a <;> simp only [Kind.has] at ha
    exact ⟨false, rfl⟩

theorem has_na (k : Kind) : ¬ k.has .na := by cases k <;> exact id

theorem has_code (k : Kind) (a : V) (h : k.has a) : a.code ≠ 127 := by
  cases k <;> cases a <;> simp only [Kind.has] at h <;> simp only [V.code] <;> first | decide | skip
  rename_i t v; cases t <;> decide

/-- The order on cells: values, then null, then missing. -/
def Kind.cellLt (k : Kind) : Cell → Cell → Bool
  | .missing, _ => false
  | .scalar .na, .missing => true
  | .scalar .na, _ => false
  | .scalar _, .missing => true
  | .scalar a, .scalar b => if b = .na then true else k.lt a b
  | _, _ => false

theorem cellLt_na_l (k : Kind) (b : V) : k.cellLt (.scalar .na) (.scalar b) = false := rfl

theorem cellLt_na_r (k : Kind) (a : V) (h : a ≠ .na) : k.cellLt (.scalar a) (.scalar .na) = true := by
  cases a <;> first | exact absurd rfl h | rfl

theorem cellLt_vv (k : Kind) (a b : V) (ha : a ≠ .na) (hb : b ≠ .na) : k.cellLt (.scalar a) (.scalar b) = k.lt a b := by
  cases a <;> first | exact absurd rfl ha | (simp only [Kind.cellLt, if_neg hb])

theorem kind_irrefl (k : Kind) (a : V) (ha : k.has a) : k.lt a a = false := by
  cases k <;> cases a <;> simp only [Kind.has] at ha <;> simp only [Kind.lt, FVal.lt_irrefl, bytesLt_irrefl]
  · simp
  · simp
  · rename_i b; cases b <;> rfl

theorem kind_trans (k : Kind) (a b c : V) (ha : k.has a) (hb : k.has b) (hc : k.has c) (h1 : k.lt a b = true) (h2 : k.lt b c = true) : k.lt a c = true := by
  cases k <;> cases a <;> simp only [Kind.has] at ha <;> cases b <;> simp only [Kind.has] at hb <;> cases c <;> simp only [Kind.has] at hc <;>
    simp only [Kind.lt] at h1 h2 ⊢
  · simp only [decide_eq_true_eq] at *; omega
  · simp only [decide_eq_true_eq] at *; omega
  · exact FVal.lt_trans h1 h2
  · exact FVal.lt_trans h1 h2
  · exact bytesLt_trans _ _ _ h1 h2
  · rename_i x y z; cases x <;> cases y <;> cases z <;> simp_all

theorem bytesLt_cotrans (s t u : Bytes) (h : bytesLt s t = true) : bytesLt s u = true ∨ bytesLt u t = true := by
  by_contra hc
  simp only [not_or, Bool.not_eq_true] at hc
  rcases hsu : bytesLt u s with _ | _
  · have := bytesLt_total s u hc.1 hsu
    subst this
    rw [h] at hc
    exact absurd hc.2 (by simp)
  · have := bytesLt_trans u s t hsu h
    rw [hc.2] at this
    cases this

theorem kind_cotrans (k : Kind) (a b c : V) (ha : k.has a) (hb : k.has b) (hc : k.has c) (h : k.lt a b = true) : k.lt a c = true ∨ k.lt c b = true := by
  cases k <;> cases a <;> simp only [Kind.has] at ha <;> cases b <;> simp only [Kind.has] at hb <;> cases c <;> simp only [Kind.has] at hc <;>
    simp only [Kind.lt] at h ⊢
  · simp only [decide_eq_true_eq] at *; omega
  · simp only [decide_eq_true_eq] at *; omega
  · exact FVal.lt_cotrans _ (tame_nan hc) h
  · exact FVal.lt_cotrans _ (tame_nan hc) h
  · exact bytesLt_cotrans _ _ _ h
  · rename_i x y z; cases x <;> cases y <;> cases z <;> simp_all

/-- Fields of one kind, null and missing: documents can be sorted by them, values first, null after all values, missing
last. -/
theorem C32_kind_partial (k : Kind) : Ordered k.cell compareCell ∧
    (∀ v, k.has v → compareCell (.scalar v) (.scalar .na) = .ok .lt ∧ compareCell (.scalar v) .missing = .ok .lt) ∧
    compareCell (.scalar .na) .missing = .ok .lt := by
  have hna : V.na.isNumber = .ok false := by decide
  have l1 : ∀ v, k.has v → compareV v .na = .ok .lt := by
    intro v hv
    obtain ⟨n, hn⟩ := kind_number k v hv
    unfold compareV
    rw [if_neg (show ¬ v.code = V.na.code from has_code k v hv), hn]
    have hne : v ≠ .na := by intro e; subst e; exact has_na k hv
    cases n <;> simp [Res.bind, hna, hne]
  have l2 : ∀ v, k.has v → compareV .na v = .ok .gt := by
    intro v hv
    unfold compareV
    rw [if_neg (show ¬ V.na.code = v.code from fun e => has_code k v hv e.symm), hna]
    simp [Res.bind]
  refine ⟨?_, ?_, rfl⟩
  · refine Ordered.of_lt k.cell compareCell k.cellLt ?_ ?_ ?_ ?_
    · intro a b ha hb
      cases a with
      | container => exact absurd ha id
      | missing => cases b with
        | container => exact absurd hb id
        | missing => rfl
        | scalar b => cases b <;> rfl
      | scalar a => cases b with
        | container => exact absurd hb id
        | missing => cases a <;> rfl
        | scalar b =>
          rcases ha with rfl | ha
          · rcases hb with rfl | hb
            · rfl
            · show compareV .na b = _
              rw [l2 b hb]
              have : b ≠ .na := by intro e; subst e; exact has_na k hb
              unfold by3
              rw [cellLt_na_l, cellLt_na_r k b this]; rfl
          · have hane : a ≠ .na := by intro e; subst e; exact has_na k ha
            rcases hb with rfl | hb
            · show compareV a .na = _
              rw [l1 a ha]
              unfold by3
              rw [cellLt_na_r k a hane]; rfl
            · have hbne : b ≠ .na := by intro e; subst e; exact has_na k hb
              show compareV a b = _
              rw [kind_compare k a b ha hb]
              unfold by3
              rw [cellLt_vv k a b hane hbne, cellLt_vv k b a hbne hane]
    · intro a ha
      cases a with
      | container => rfl
      | missing => rfl
      | scalar a =>
        rcases ha with rfl | ha
        · rfl
        · have hane : a ≠ .na := by intro e; subst e; exact has_na k ha
          rw [cellLt_vv k a a hane hane, kind_irrefl k a ha]
    · intro a b c ha hb hc h1 h2
      cases a with
      | container => exact absurd ha id
      | missing => cases h1
      | scalar a => cases b with
        | container => exact absurd hb id
        | missing => cases h2
        | scalar b =>
          rcases ha with rfl | ha
          · cases h1
          · rcases hb with rfl | hb
            · cases c with
              | container => exact absurd hc id
              | missing => cases a <;> first | rfl | exact absurd ha (has_na k)
              | scalar c => cases h2
            · have hane : a ≠ .na := by intro e; subst e; exact has_na k ha
              have hbne : b ≠ .na := by intro e; subst e; exact has_na k hb
              cases c with
              | container => exact absurd hc id
              | missing => cases a <;> first | rfl | exact absurd ha (has_na k)
              | scalar c =>
                rcases hc with rfl | hc
                · exact cellLt_na_r k a hane
                · have hcne : c ≠ .na := by intro e; subst e; exact has_na k hc
                  rw [cellLt_vv k _ _ hane hbne] at h1
                  rw [cellLt_vv k _ _ hbne hcne] at h2
                  rw [cellLt_vv k _ _ hane hcne]
                  exact kind_trans k a b c ha hb hc h1 h2
    · intro a b c ha hb hc h
      cases a with
      | container => exact absurd ha id
      | missing => cases h
      | scalar a =>
        rcases ha with rfl | ha
        · cases b with
          | container => exact absurd hb id
          | missing => cases c with
            | container => exact absurd hc id
            | missing => exact Or.inl rfl
            | scalar c => exact Or.inr (by cases c <;> rfl)
          | scalar b => cases h
        · have hane : a ≠ .na := by intro e; subst e; exact has_na k ha
          cases c with
          | container => exact absurd hc id
          | missing => exact Or.inl (by cases a <;> first | rfl | exact absurd ha (has_na k))
          | scalar c =>
            rcases hc with rfl | hc
            · exact Or.inl (cellLt_na_r k a hane)
            · have hcne : c ≠ .na := by intro e; subst e; exact has_na k hc
              cases b with
              | container => exact absurd hb id
              | missing => exact Or.inr (by cases c <;> first | rfl | exact absurd hc (has_na k))
              | scalar b =>
                rcases hb with rfl | hb
                · exact Or.inr (cellLt_na_r k c hcne)
                · have hbne : b ≠ .na := by intro e; subst e; exact has_na k hb
                  rw [cellLt_vv k _ _ hane hbne] at h
                  rw [cellLt_vv k _ _ hane hcne, cellLt_vv k _ _ hcne hbne]
                  exact kind_cotrans k a b c ha hb hc h
  · intro v hv
    refine ⟨l1 v hv, ?_⟩
    cases v <;> rfl

example : Kind.has (.ints [.i64, .u64]) (.int .u64 7) ∧ Kind.has (.ints [.i64, .u64]) (.int .i64 3) ∧ Kind.has .doubles (.double 0) := by
  refine ⟨by simp [Kind.has]; decide, by simp [Kind.has]; decide, Or.inr ⟨0, by decide +kernel, ?_, ?_⟩⟩
  · exact Int.mul_pos (by norm_num) Num.one_pos
  · exact Int.ne_of_lt (Int.mul_pos (by norm_num) Num.one_pos)

/-- A string is "equal" to every number: 1 = "x" = 2 although 1 < 2. -/
theorem C32_string_fails : ¬ C32_claim := by
  intro h
  have := h.ties (.scalar (.int .i64 1)) (.scalar (.str [120])) (.scalar (.int .i64 2)) (by rintro v ⟨⟩; simp [V.valid]; decide)
    (by rintro v ⟨⟩; simp [V.valid]) (by rintro v ⟨⟩; simp [V.valid]; decide) (by decide +kernel)
  revert this; decide +kernel

/-- A positive number stored as unsigned and a negative one stored as signed: the comparison throws in one direction. -/
theorem C32_sign_fails : ¬ C32_claim ∧ compareCell (.scalar (.int .u64 1)) (.scalar (.int .i64 (-1))) = .throws ∧
    compareCell (.scalar (.int .i64 (-1))) (.scalar (.int .u64 1)) = .ok .lt := by
  refine ⟨?_, by decide +kernel, by decide +kernel⟩
  intro h
  obtain ⟨o, h1, h2⟩ := h.swap (.scalar (.int .u64 1)) (.scalar (.int .i64 (-1))) (by rintro v ⟨⟩; simp [V.valid]; decide)
    (by rintro v ⟨⟩; simp [V.valid]; decide)
  have e : compareCell (.scalar (.int .u64 1)) (.scalar (.int .i64 (-1))) = .throws := by decide +kernel
  rw [e] at h1; cases h1

/-- 1 and 1.5: equal as integers, less as doubles. -/
theorem C32_double_fails : ¬ C32_claim ∧ compareCell (.scalar (.int .i64 1)) (.scalar (.double 0x3FF8000000000000)) = .ok .eq ∧
    compareCell (.scalar (.double 0x3FF8000000000000)) (.scalar (.int .i64 1)) = .ok .gt := by
  have e1 : compareCell (.scalar (.int .i64 1)) (.scalar (.double 0x3FF8000000000000)) = .ok .eq := by decide +kernel
  have e2 : compareCell (.scalar (.double 0x3FF8000000000000)) (.scalar (.int .i64 1)) = .ok .gt := by decide +kernel
  refine ⟨?_, e1, e2⟩
  intro h
  obtain ⟨o, h1, h2⟩ := h.swap (.scalar (.int .i64 1)) (.scalar (.double 0x3FF8000000000000)) (by rintro v ⟨⟩; simp [V.valid]; decide)
    (by rintro v ⟨⟩; simp [V.valid])
  rw [e1] at h1; rw [e2] at h2
  injection h1 with h1; subst h1
  cases h2

/-- NaN is "equal" to every double. -/
theorem C32_nan_fails : ¬ C32_claim := by
  intro h
  have := h.ties (.scalar (.double 0)) (.scalar (.double 0x7FF8000000000000)) (.scalar (.double 0x3FF8000000000000))
    (by rintro v ⟨⟩; simp [V.valid]) (by rintro v ⟨⟩; simp [V.valid]) (by rintro v ⟨⟩; simp [V.valid]) (by decide +kernel)
  revert this; decide +kernel

/-- An object is "equal" to every value. -/
theorem C32_container_fails : ¬ C32_claim := by
  intro h
  have := h.ties (.scalar (.int .i64 1)) .container (.scalar (.int .i64 2)) (by rintro v ⟨⟩; simp [V.valid]; decide)
    (by rintro v ⟨⟩) (by rintro v ⟨⟩; simp [V.valid]; decide) rfl
  revert this; decide +kernel

end Verif.DocVal
