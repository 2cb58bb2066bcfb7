import Verif.PhysKey.Spec
/-!
C27: the order of keys.
-/
namespace Verif.PhysKey

open Verif.Num

theorem pow24 : (0 : Nat) < 24 := by omega
theorem pow53 : (0 : Nat) < 53 := by omega

theorem cmpLess_eq (s1 s2 : Bool) (a b : Int) (h1 : s1 = false → 0 ≤ a) (h2 : s2 = false → 0 ≤ b) : cmpLess s1 a s2 b = decide (a < b) := by
  unfold cmpLess
  rw [Bool.eq_iff_iff]
  cases s1 <;> cases s2 <;> simp only [Bool.false_eq_true, Bool.true_eq_false, if_true, if_false, Bool.and_eq_true, Bool.or_eq_true, decide_eq_true_iff]
  · have := h1 rfl
    constructor
    · rintro ⟨x, y⟩; omega
    · intro h; omega
  · have := h2 rfl
    constructor
    · rintro (x | x) <;> omega
    · intro h; omega

theorem read_nonneg (t : ITy) (d : UInt64) (h : t.signed = false) : 0 ≤ t.read d := by
  unfold ITy.read
  rw [h]
  simp only [Bool.false_and, Bool.false_eq_true, if_false]
  exact Int.natCast_nonneg _

/-- Integers are compared by value, whatever widths and signs they are stored with. -/
theorem int_lt (t u : ITy) (a b : UInt64) : Key.lt (.int t a) (.int u b) = decide (t.read a < u.read b) :=
  cmpLess_eq _ _ _ _ (read_nonneg t a) (read_nonneg u b)

theorem read_ofInt (t : ITy) (v : Int) (h : t.fits v) : t.read (UInt64.ofNat (v % 2 ^ t.bits).toNat) = v := by
  unfold ITy.fits at h
  unfold ITy.read
  cases t <;> simp [ITy.signed, ITy.bits, UInt64.toNat_ofNat'] at h ⊢ <;> omega

/-- The comparison of two integers is the comparison of their values: width and signedness do not matter. -/
theorem C27_width (t u : ITy) (v w : Int) (hv : t.fits v) (hw : u.fits w) :
    Key.lt (Key.ofInt t v) (Key.ofInt u w) = decide (v < w) ∧ Key.eq (Key.ofInt t v) (Key.ofInt u w) = decide (v = w) := by
  have h1 : Key.lt (Key.ofInt t v) (Key.ofInt u w) = decide (v < w) := by
    unfold Key.ofInt; rw [int_lt, read_ofInt t v hv, read_ofInt u w hw]
  have h2 : Key.lt (Key.ofInt u w) (Key.ofInt t v) = decide (w < v) := by
    unfold Key.ofInt; rw [int_lt, read_ofInt t v hv, read_ofInt u w hw]
  refine ⟨h1, ?_⟩
  unfold Key.eq
  rw [h1, h2]
  rcases Int.lt_trichotomy v w with h | h | h
  · simp [h, Int.ne_of_lt h]
  · simp [h]
  · simp [h, Int.ne_of_gt h]

example : ITy.fits .i8 (-1) ∧ ITy.fits .u64 (2 ^ 64 - 1) ∧ ITy.fits .i64 (-1) := by decide

theorem bytesLt_irrefl (s : Bytes) : bytesLt s s = false := by
  induction s with
  | nil => rfl
  | cons a s ih => simp [bytesLt, ih]

theorem bytesLt_trans (s t u : Bytes) (h1 : bytesLt s t = true) (h2 : bytesLt t u = true) : bytesLt s u = true := by
  induction s generalizing t u with
  | nil =>
    cases t with
    | nil => cases h1
    | cons b t => cases u with
      | nil => cases h2
      | cons c u => rfl
  | cons a s ih =>
    cases t with
    | nil => cases h1
    | cons b t =>
      cases u with
      | nil => cases h2
      | cons c u =>
        simp only [bytesLt] at h1 h2 ⊢
        split at h1 <;> rename_i x1
        · split at h2 <;> rename_i x2
          · rw [if_pos (by omega)]
          · split at h2 <;> rename_i x3
            · cases h2
            · rw [if_pos (by omega)]
        · split at h1 <;> rename_i x2
          · cases h1
          · split at h2 <;> rename_i x3
            · rw [if_pos (by omega)]
            · split at h2 <;> rename_i x4
              · cases h2
              · rw [if_neg (by omega), if_neg (by omega)]
                exact ih t u h1 h2

theorem bytesLt_asymm (s t : Bytes) (h : bytesLt s t = true) : bytesLt t s = false := by
  by_contra hc
  have := bytesLt_trans s t s h (by simpa using hc)
  rw [bytesLt_irrefl] at this
  cases this

/-- Two strings are equivalent only if they are equal. -/
theorem bytesLt_total (s t : Bytes) (h1 : bytesLt s t = false) (h2 : bytesLt t s = false) : s = t := by
  induction s generalizing t with
  | nil => cases t with
    | nil => rfl
    | cons b t => cases h1
  | cons a s ih =>
    cases t with
    | nil => cases h2
    | cons b t =>
      simp only [bytesLt] at h1 h2
      by_cases x1 : a.toNat < b.toNat
      · rw [if_pos x1] at h1; cases h1
      · by_cases x2 : b.toNat < a.toNat
        · rw [if_pos x2] at h2; cases h2
        · rw [if_neg x1, if_neg x2] at h1
          rw [if_neg x2, if_neg x1] at h2
          rw [ih t h1 h2, UInt8.toNat_inj.mp (show a.toNat = b.toNat by omega)]

/-- No key is less than itself, and never are two keys both less than each other: for all keys, NaN included. -/
theorem C27_irreflexive_asymmetric (a b : Key) : Key.lt a a = false ∧ (Key.lt a b = true → Key.lt b a = false) := by
  constructor
  · cases a with
    | na => rfl
    | bool b => cases b <;> rfl
    | int t d => rw [int_lt]; simp
    | float d => exact FVal.lt_irrefl _
    | double d => exact FVal.lt_irrefl _
    | str s => exact bytesLt_irrefl s
  · intro h
    cases a <;> cases b <;> first
      | rfl
      | cases h
      | exact FVal.lt_asymm h
      | exact bytesLt_asymm _ _ h
      | skip
    · rename_i a b; cases a <;> cases b <;> simp_all [Key.lt]
    · rename_i t a u b
      rw [int_lt] at h ⊢
      simp at h ⊢
      omega

/-- The number behind a key. -/
def Key.num : Key → FVal
  | .int t a => .fin (t.read a * one)
  | .float b => decode32 b
  | .double b => decode64 b
  | _ => .nan

/-- The classes of keys, in order: booleans, numbers, strings, null. -/
def Key.cls : Key → Nat
  | .bool _ => 0
  | .int _ _ => 1
  | .float _ => 1
  | .double _ => 1
  | .str _ => 2
  | .na => 3

theorem lt_cls (a b : Key) (h : a.cls ≠ b.cls) : Key.lt a b = decide (a.cls < b.cls) := by
  cases a <;> cases b <;> first | rfl | exact absurd rfl h

theorem num_lt_ints (t u : ITy) (a b : UInt64) : Key.lt (.int t a) (.int u b) = FVal.lt (Key.num (.int t a)) (Key.num (.int u b)) := by
  rw [int_lt]
  simp only [Key.num, FVal.lt, mul_one_lt]

/-- On the numbers of a set, the order is that of their values. -/
def ByValue (S : Key → Prop) : Prop := ∀ a b, S a → S b → a.cls = 1 → b.cls = 1 → Key.lt a b = FVal.lt a.num b.num

theorem strictWeak_of_byValue (S : Key → Prop) (hv : ByValue S) (hn : ∀ a, S a → a.isNaN = false) : StrictWeak S Key.lt := by
  have hnum : ∀ a, S a → a.cls = 1 → a.num ≠ .nan := by
    intro a ha hc
    have := hn a ha
    cases a <;> simp_all [Key.cls, Key.num, Key.isNaN]
  -- comparison splits any third key of the set
  have cotrans : ∀ a b c, S a → S b → S c → Key.lt a b = true → Key.lt a c = true ∨ Key.lt c b = true := by
    intro a b c ha hb hc h
    have hle : a.cls ≤ b.cls := by
      by_contra hlt
      rw [lt_cls a b (by omega)] at h
      simp at h
      omega
    by_cases h1 : a.cls < c.cls
    · left; rw [lt_cls a c (by omega)]; simpa using h1
    by_cases h2 : c.cls < b.cls
    · right; rw [lt_cls c b (by omega)]; simpa using h2
    have e1 : a.cls = c.cls := by omega
    have e2 : b.cls = c.cls := by omega
    by_cases hnumc : c.cls = 1
    · rw [hv a b ha hb (by omega) (by omega)] at h
      rw [hv a c ha hc (by omega) hnumc, hv c b hc hb hnumc (by omega)]
      exact FVal.lt_cotrans c.num (hnum c hc hnumc) h
    · cases a <;> cases b <;> cases c <;> simp_all [Key.cls]
      · rename_i x y z; cases x <;> cases y <;> cases z <;> simp_all [Key.lt]
      · rename_i s t u
        by_cases k1 : bytesLt s u = true
        · exact Or.inl k1
        · by_cases k2 : bytesLt u t = true
          · exact Or.inr k2
          · exfalso
            by_cases k3 : bytesLt u s = true
            · exact k2 (bytesLt_trans u s t k3 h)
            · have := bytesLt_total s u (by simpa using k1) (by simpa using k3)
              rw [← this] at k2
              exact k2 h
  have asymm : ∀ a b, Key.lt a b = true → Key.lt b a = false := fun a b => (C27_irreflexive_asymmetric a b).2
  refine ⟨fun a _ => (C27_irreflexive_asymmetric a a).1, ?_, ?_⟩
  · intro a b c ha hb hc h1 h2
    rcases cotrans a b c ha hb hc h1 with h | h
    · exact h
    · rw [asymm b c h2] at h; cases h
  · intro a b c ha hb hc h1 h2
    constructor
    · by_contra h
      rcases cotrans a c b ha hc hb (by simpa using h) with k | k
      · rw [h1.1] at k; cases k
      · rw [h2.1] at k; cases k
    · by_contra h
      rcases cotrans c a b hc ha hb (by simpa using h) with k | k
      · rw [h2.2] at k; cases k
      · rw [h1.2] at k; cases k

/-- The full claim: a strict weak order on all keys. -/
def C27_claim : Prop := StrictWeak (fun _ => True) Key.lt

/-- On keys without floating point numbers. -/
theorem C27_integers_partial : StrictWeak (fun k => k.isFloat = false ∧ k.isDouble = false) Key.lt := by
  refine strictWeak_of_byValue _ ?_ ?_
  · rintro a b ⟨a1, a2⟩ ⟨b1, b2⟩ ca cb
    cases a <;> cases b <;> simp_all [Key.cls, Key.isFloat, Key.isDouble]
    exact num_lt_ints _ _ _ _
  · rintro a ⟨a1, a2⟩
    cases a <;> simp_all [Key.isFloat, Key.isDouble, Key.isNaN]

theorem ofInt_small (p : Nat) (hp : 0 < p) (t : ITy) (a : UInt64) (h : (t.read a).natAbs ≤ 2 ^ p) : Num.ofInt p (t.read a) = Key.num (.int t a) := by
  unfold Num.ofInt Key.num
  rw [rnd_exact p _ hp h]

/-- On keys with doubles that are numbers, and integers of up to 53 bits. -/
theorem C27_doubles_partial : StrictWeak (fun k => k.isFloat = false ∧ k.isNaN = false ∧ k.small 53) Key.lt := by
  refine strictWeak_of_byValue _ ?_ (fun a h => h.2.1)
  rintro a b ⟨a1, a2, a3⟩ ⟨b1, b2, b3⟩ ca cb
  cases a <;> cases b <;> simp_all [Key.cls, Key.isFloat] <;> first
    | exact num_lt_ints _ _ _ _
    | (simp only [Key.lt]; rw [ofInt_small 53 pow53 _ _ (by first | exact a3 | exact b3)]; rfl)
    | rfl

/-- On keys with floating point numbers of both kinds that are numbers, and integers of up to 24 bits. -/
theorem C27_floats_partial : StrictWeak (fun k => k.isNaN = false ∧ k.small 24) Key.lt := by
  refine strictWeak_of_byValue _ ?_ (fun a h => h.1)
  rintro a b ⟨a2, a3⟩ ⟨b2, b3⟩ ca cb
  have s : ∀ t d, (Key.int t d).small 24 → (t.read d).natAbs ≤ 2 ^ 53 := fun t d h => le_trans h (by norm_num)
  cases a <;> cases b <;> simp_all [Key.cls] <;> first
    | exact num_lt_ints _ _ _ _
    | (simp only [Key.lt]; rw [ofInt_small 24 pow24 _ _ (by first | exact a3 | exact b3)]; rfl)
    | (simp only [Key.lt]; rw [ofInt_small 53 pow53 _ _ (by first | exact s _ _ a3 | exact s _ _ b3)]; rfl)
    | rfl

/-- Keys of every class in the three sets: -1 as 8 bits, 1.5, 2^53 as 64 bits, "a", null. -/
example : (Key.ofInt .i8 (-1)).small 24 ∧ (Key.float 0x3fc00000).isNaN = false ∧ (Key.ofInt .u64 (2 ^ 53)).small 53 ∧
    (Key.double 0x3ff8000000000000).isNaN = false ∧ Key.lt (.ofInt .i8 (-1)) (.float 0x3fc00000) = true ∧
    Key.lt (.float 0x3fc00000) (.double 0x3ff8000000000000) = false ∧ Key.lt (.double 0x3ff8000000000000) (.str [97]) = true ∧
    Key.lt (.str [97]) .na = true := by
  refine ⟨?_, by decide +kernel, ?_, by decide +kernel, by decide +kernel, by decide +kernel, by decide +kernel, by decide +kernel⟩
  · show (ITy.read .i8 _).natAbs ≤ 2 ^ 24
    decide +kernel
  · show (ITy.read .u64 _).natAbs ≤ 2 ^ 53
    decide +kernel

/-- Without `float`, transitivity holds for all keys, NaN and large integers included. -/
theorem C27_transitive_partial (a b c : Key) (ha : a.isFloat = false) (hb : b.isFloat = false) (hc : c.isFloat = false)
    (h1 : Key.lt a b = true) (h2 : Key.lt b c = true) : Key.lt a c = true := by
  have mono : ∀ (t u : ITy) (x y : UInt64), Key.lt (.int t x) (.int u y) = true → rnd 53 (t.read x) ≤ rnd 53 (u.read y) := by
    intro t u x y h
    rw [int_lt] at h
    exact rnd_mono 53 pow53 (le_of_lt (of_decide_eq_true h))
  have le_lt : ∀ {x y : Int} {f : FVal}, x ≤ y → FVal.lt (.fin (y * one)) f = true → FVal.lt (.fin (x * one)) f = true := by
    intro x y f hxy h
    have : x * one ≤ y * one := mul_one_le hxy
    cases f <;> simp_all [FVal.lt]
    omega
  have lt_le : ∀ {x y : Int} {f : FVal}, x ≤ y → FVal.lt f (.fin (x * one)) = true → FVal.lt f (.fin (y * one)) = true := by
    intro x y f hxy h
    have : x * one ≤ y * one := mul_one_le hxy
    cases f <;> simp_all [FVal.lt]
    omega
  have sandwich : ∀ (t u : ITy) (x y : UInt64) (f : FVal), FVal.lt (Num.ofInt 53 (t.read x)) f = true → FVal.lt f (Num.ofInt 53 (u.read y)) = true →
      Key.lt (.int t x) (.int u y) = true := by
    intro t u x y f k1 k2
    have k := FVal.lt_trans k1 k2
    rw [ofInt_lt] at k
    rw [int_lt, decide_eq_true_iff]
    by_contra hle
    have := rnd_mono 53 pow53 (show u.read y ≤ t.read x by omega)
    have := of_decide_eq_true k
    omega
  by_cases hab : a.cls = b.cls
  · by_cases hbc : b.cls = c.cls
    · cases a <;> cases b <;> cases c <;> simp_all [Key.cls, Key.isFloat]
      · rename_i x y z; cases x <;> cases y <;> cases z <;> simp_all [Key.lt]
      · rename_i t x u y v z
        rw [int_lt] at *
        simp at *
        omega
      · rename_i t x u y z
        exact le_lt (mono _ _ _ _ h1) h2
      · rename_i t x y u z
        exact sandwich _ _ _ _ _ h1 h2
      · exact FVal.lt_trans h1 h2
      · exact lt_le (mono _ _ _ _ h2) h1
      · exact FVal.lt_trans h1 h2
      · exact FVal.lt_trans h1 h2
      · exact FVal.lt_trans h1 h2
      · exact bytesLt_trans _ _ _ h1 h2
    · rw [lt_cls b c hbc] at h2
      rw [lt_cls a c (by omega)]
      simp at h2 ⊢; omega
  · rw [lt_cls a b hab] at h1
    by_cases hbc : b.cls = c.cls
    · rw [lt_cls a c (by omega)]
      simp at h1 ⊢; omega
    · rw [lt_cls b c hbc] at h2
      have h1 := of_decide_eq_true h1
      have h2 := of_decide_eq_true h2
      rw [lt_cls a c (by omega)]
      simp; omega

/-- `numeric_limits::min` and `max` bound every key. -/
theorem C27_limits (k : Key) : Key.lt k .min = false ∧ Key.lt .max k = false := by
  constructor
  · cases k <;> first | rfl | (rename_i b; cases b <;> rfl)
  · rfl

/-- 64-bit integers with doubles: 2^53 as integer and 2^53 as double, 2^53 + 1 and 2^53 as double are equivalent, the
two integers are not. -/
theorem C27_mixed_fails : ¬ C27_claim := by
  intro h
  have := h.incomp (.ofInt .i64 (2 ^ 53)) (.double 0x4340000000000000) (.ofInt .i64 (2 ^ 53 + 1)) trivial trivial trivial
    (by decide +kernel) (by decide +kernel)
  revert this
  decide +kernel

/-- With `float` even transitivity fails: 2^24 + 3 < 2^24 + 3.5 (double) < 2^24 + 4 (float), but 2^24 + 3 is equivalent to the last. -/
theorem C27_transitive_fails : ¬ C27_claim := by
  intro h
  have := h.trans (.ofInt .i32 (2 ^ 24 + 3)) (.double 0x4170000038000000) (.float 0x4b800002) trivial trivial trivial
    (by decide +kernel) (by decide +kernel)
  revert this
  decide +kernel

/-- NaN is equivalent to every number. -/
theorem C27_nan_fails : ¬ C27_claim := by
  intro h
  have := h.incomp (.ofInt .i32 1) (.double 0x7ff8000000000000) (.ofInt .i32 2) trivial trivial trivial
    (by decide +kernel) (by decide +kernel)
  revert this
  decide +kernel

end Verif.PhysKey
