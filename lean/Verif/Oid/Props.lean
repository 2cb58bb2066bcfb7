import Verif.Oid.Spec
import Mathlib.Tactic.Ring
/-!
C60: the identifiers of documents.
-/
namespace Verif.Oid

/-! ### characters -/

theorem bytes_all {P : UInt8 → Prop} (h : ∀ n : Fin 256, P (UInt8.ofNat n.val)) (v : UInt8) : P v := by
  have := h ⟨v.toNat, v.toNat_lt⟩
  rwa [UInt8.ofNat_toNat] at this

theorem from_to (v : UInt8) : fromChar (toChar (v / 16)) * 16 + fromChar (toChar (v % 16)) = v := by
  revert v; apply bytes_all; decide +kernel

theorem to_hex (v : UInt8) : hexChar (toChar (v / 16)) = true ∧ hexChar (toChar (v % 16)) = true := by
  revert v; apply bytes_all; decide +kernel

theorem hex_digit (c : UInt8) : (hexChar c = true ↔ digit c ≠ none) ∧ (hexChar c = true → digit c = some (fromChar c).toNat ∧ (fromChar c).toNat < 16 ∧
    toChar (fromChar c) = if 65 ≤ c.toNat ∧ c.toNat ≤ 70 then c + 32 else c) := by
  revert c; apply bytes_all; decide +kernel

theorem to_digit (v : UInt8) : digit (toChar (v / 16)) = some (v.toNat / 16) ∧ digit (toChar (v % 16)) = some (v.toNat % 16) := by
  revert v; apply bytes_all; decide +kernel

theorem text_length (d : Bytes) : (text d).length = 2 * d.length := by
  induction d with
  | nil => rfl
  | cons b d ih => simp only [text, List.length_cons, ih]; omega

theorem text_hex (d : Bytes) : (text d).all hexChar = true := by
  induction d with
  | nil => rfl
  | cons b d ih => simp [text, to_hex b, ih]

theorem pairs_text (d : Bytes) : pairs (text d) = d := by
  induction d with
  | nil => rfl
  | cons b d ih => simp only [text, pairs, from_to, ih]

theorem text_valid {d : Bytes} (h : Id d) : isValid (text d) = true := by
  unfold isValid
  rw [text_hex, text_length, h]
  rfl

/-- The text of an identifier is 24 digits of base 16 and gives the identifier back. -/
theorem C60_text (d : Bytes) (h : Id d) : Hex24 (text d) ∧ init (text d) = d := by
  refine ⟨⟨by rw [text_length, h], ?_⟩, ?_⟩
  · intro c hc
    exact (hex_digit c).1.mp (List.all_eq_true.mp (text_hex d) c hc)
  · unfold init
    rw [if_pos (text_valid h), pairs_text]

example : Id (low 12 0x1234567890abcdef) := rfl

theorem valid_iff (s : Bytes) : isValid s = true ↔ Hex24 s := by
  unfold isValid Hex24
  rw [Bool.and_eq_true, beq_iff_eq, List.all_eq_true]
  exact ⟨fun h => ⟨h.1, fun c hc => (hex_digit c).1.mp (h.2 c hc)⟩, fun h => ⟨h.1, fun c hc => (hex_digit c).1.mpr (h.2 c hc)⟩⟩

theorem two_induction {P : Bytes → Prop} (h0 : P []) (h1 : ∀ a, P [a]) (h2 : ∀ a b s, P s → P (a :: b :: s)) : ∀ s, P s
  | [] => h0
  | [a] => h1 a
  | a :: b :: s => h2 a b s (two_induction h0 h1 h2 s)

theorem pairs_length (s : Bytes) : (pairs s).length = s.length / 2 := by
  induction s using two_induction with
  | h0 => rfl
  | h1 a => simp [pairs]
  | h2 a b s ih => simp only [pairs, List.length_cons, ih]; omega

theorem pair_parts (x y : UInt8) (hx : x.toNat < 16) (hy : y.toNat < 16) : (x * 16 + y) / 16 = x ∧ (x * 16 + y) % 16 = y := by
  have h : ∀ a b : Fin 16, (UInt8.ofNat a.val * 16 + UInt8.ofNat b.val) / 16 = UInt8.ofNat a.val ∧
      (UInt8.ofNat a.val * 16 + UInt8.ofNat b.val) % 16 = UInt8.ofNat b.val := by decide +kernel
  have := h ⟨x.toNat, hx⟩ ⟨y.toNat, hy⟩
  rwa [UInt8.ofNat_toNat, UInt8.ofNat_toNat] at this

theorem text_pairs (s : Bytes) : (∀ c ∈ s, hexChar c = true) → s.length % 2 = 0 → text (pairs s) = lower s := by
  induction s using two_induction with
  | h0 => intro _ _; rfl
  | h1 a => intro _ h; cases h
  | h2 a b s ih =>
    intro hc hl
    have ha := (hex_digit a).2 (hc a (by simp))
    have hb := (hex_digit b).2 (hc b (by simp))
    have e := pair_parts (fromChar a) (fromChar b) ha.2.1 hb.2.1
    simp only [pairs, text, e.1, e.2, ha.2.2, hb.2.2]
    rw [ih (fun c h => hc c (by simp [h])) (by simp only [List.length_cons] at hl; omega)]
    simp [lower]

/-- An identifier made of 24 digits has them as its text, in small letters; of any other text the identifier is null. -/
theorem C60_parse (s : Bytes) : Id (init s) ∧ (Hex24 s → text (init s) = lower s) ∧ (¬ Hex24 s → init s = List.replicate 12 0 ∧ isNull (init s) = true) := by
  unfold init
  by_cases h : isValid s = true
  · have hv := (valid_iff s).mp h
    rw [if_pos h]
    refine ⟨by unfold Id; rw [pairs_length, hv.1], fun _ => text_pairs s ?_ (by rw [hv.1]), fun h' => absurd hv h'⟩
    exact fun c hc => (hex_digit c).1.mpr (hv.2 c hc)
  · rw [if_neg h]
    exact ⟨rfl, fun h' => absurd ((valid_iff s).mpr h') h, fun _ => ⟨rfl, rfl⟩⟩

example : Hex24 (List.replicate 24 65) ∧ lower (List.replicate 24 65) = List.replicate 24 97 := by
  constructor
  · exact ⟨rfl, by decide⟩
  · decide

/-! ### order -/

theorem fold_add (d : Bytes) : ∀ v, d.foldl (fun v b => v * 256 + b.toNat) v = v * 256 ^ d.length + value d := by
  induction d with
  | nil => intro v; simp [value]
  | cons b d ih =>
    intro v
    unfold value
    rw [List.foldl_cons, List.foldl_cons, ih, ih (0 * 256 + b.toNat), List.length_cons, pow_succ]
    ring

theorem value_cons (b : UInt8) (d : Bytes) : value (b :: d) = b.toNat * 256 ^ d.length + value d := by
  show d.foldl _ (0 * 256 + b.toNat) = _
  rw [fold_add]
  ring

theorem value_lt (d : Bytes) : value d < 256 ^ d.length := by
  induction d with
  | nil => exact Nat.one_pos
  | cons b d ih =>
    rw [value_cons, List.length_cons, pow_succ]
    have hb : b.toNat ≤ 255 := by have := b.toNat_lt; omega
    have := Nat.mul_le_mul_right (256 ^ d.length) hb
    omega

theorem compare_value : ∀ a b : Bytes, a.length = b.length → (compare a b < 0 ↔ value a < value b) ∧ (compare a b = 0 ↔ a = b) := by
  intro a
  induction a with
  | nil =>
    intro b h
    cases b with
    | nil => simp [compare]
    | cons => cases h
  | cons x a ih =>
    intro b h
    cases b with
    | nil => cases h
    | cons y b =>
      have hl : a.length = b.length := by simpa using h
      obtain ⟨i1, i2⟩ := ih b hl
      have va := value_lt a
      have vb := value_lt b
      rw [value_cons, value_cons, hl]
      rw [hl] at va
      generalize 256 ^ b.length = K at *
      unfold compare
      by_cases h1 : x < y
      · rw [if_pos h1]
        have h1' : x.toNat + 1 ≤ y.toNat := UInt8.lt_iff_toNat_lt.mp h1
        have := Nat.mul_le_mul_right K h1'
        rw [Nat.add_mul] at this
        refine ⟨⟨fun _ => by omega, fun _ => by decide⟩, ⟨fun h => absurd h (by decide), fun h => ?_⟩⟩
        injection h with h _
        subst h
        exact absurd h1 (UInt8.lt_irrefl _)
      · rw [if_neg h1]
        by_cases h2 : y < x
        · rw [if_pos h2]
          have h2' : y.toNat + 1 ≤ x.toNat := UInt8.lt_iff_toNat_lt.mp h2
          have := Nat.mul_le_mul_right K h2'
          rw [Nat.add_mul] at this
          refine ⟨⟨fun h => absurd h (by decide), fun h => by omega⟩, ⟨fun h => absurd h (by decide), fun h => ?_⟩⟩
          injection h with h _
          subst h
          exact absurd h2 (UInt8.lt_irrefl _)
        · rw [if_neg h2]
          have e : x = y := UInt8.le_antisymm (UInt8.not_lt.mp h2) (UInt8.not_lt.mp h1)
          subst e
          rw [i1, i2]
          refine ⟨by omega, by simp⟩

theorem eq_of_value : ∀ a b : Bytes, a.length = b.length → value a = value b → a = b := by
  intro a
  induction a with
  | nil => intro b h _; cases b with
    | nil => rfl
    | cons => cases h
  | cons x a ih =>
    intro b h e
    cases b with
    | nil => cases h
    | cons y b =>
      have hl : a.length = b.length := by simpa using h
      have va := value_lt a
      have vb := value_lt b
      rw [value_cons, value_cons, hl] at e
      rw [hl] at va
      have hp : 0 < 256 ^ b.length := Nat.pow_pos (by decide)
      have ex : x.toNat = y.toNat := by
        have h1 : (x.toNat * 256 ^ b.length + value a) / 256 ^ b.length = (y.toNat * 256 ^ b.length + value b) / 256 ^ b.length := by rw [e]
        rwa [Nat.add_comm, Nat.add_mul_div_right _ _ hp, Nat.div_eq_of_lt va, Nat.add_comm _ (value b), Nat.add_mul_div_right _ _ hp,
          Nat.div_eq_of_lt vb, Nat.zero_add, Nat.zero_add] at h1
      have ey : value a = value b := by rw [ex] at e; omega
      rw [UInt8.toNat_inj.mp ex, ih b hl ey]

theorem number_text (d : Bytes) : ∀ v, (text d).foldl (fun v c => match v, digit c with
    | some v, some x => some (v * 16 + x)
    | _, _ => none) (some v) = some (d.foldl (fun v b => v * 256 + b.toNat) v) := by
  induction d with
  | nil => intro v; rfl
  | cons b d ih =>
    intro v
    simp only [text, List.foldl_cons, (to_digit b).1, (to_digit b).2]
    rw [ih]
    congr 2
    omega

/-- Identifiers are compared as the numbers their texts show, and are equal exactly if their texts are. -/
theorem C60_order (a b : Bytes) (ha : Id a) (hb : Id b) : ∃ x y, number (text a) = some x ∧ number (text b) = some y ∧
    (lt a b = true ↔ x < y) ∧ (eq a b = true ↔ text a = text b) ∧ (eq a b = true ↔ x = y) := by
  have h := compare_value a b (ha.trans hb.symm)
  refine ⟨value a, value b, number_text a 0, number_text b 0, by unfold lt; rw [decide_eq_true_iff, h.1], ?_, ?_⟩
  · unfold eq
    rw [beq_iff_eq, h.2]
    constructor
    · rintro rfl; rfl
    · intro e
      have := congrArg pairs e
      rwa [pairs_text, pairs_text] at this
  · unfold eq
    rw [beq_iff_eq, h.2]
    constructor
    · rintro rfl; rfl
    · intro e
      exact eq_of_value _ _ (ha.trans hb.symm) e

example : lt (low 12 255) (low 12 256) = true := by decide

/-! ### generated identifiers -/

theorem low_length (n v : Nat) : (low n v).length = n := by
  induction n with
  | zero => rfl
  | succ n ih => simp [low, ih]

theorem low_value (n v : Nat) : value (low n v) = v % 256 ^ n := by
  induction n with
  | zero => rw [pow_zero, Nat.mod_one]; rfl
  | succ n ih =>
    rw [low, value_cons, low_length, ih, UInt8.toNat_ofNat', show (2 ^ 8 : Nat) = 256 from rfl,
      show 256 ^ (n + 1) = 256 ^ n * 256 from rfl, Nat.mod_mul, Nat.add_comm, Nat.mul_comm]

theorem mint_id (g : Gen) (t : UInt32) : Id (mint g t).1 := by
  unfold Id mint
  simp [low_length]

theorem mintAll_at (ts : List UInt32) : ∀ g i, (mintAll g ts)[i]? = (ts[i]?).map fun t => low 4 t.toNat ++ low 5 g.random ++ low 3 (g.counter + UInt32.ofNat i + 1).toNat := by
  induction ts with
  | nil => intro g i; rfl
  | cons t ts ih =>
    intro g i
    cases i with
    | zero => simp [mintAll, mint]
    | succ i =>
      simp only [mintAll, List.getElem?_cons_succ]
      rw [ih]
      simp only [mint]
      congr 1
      funext t
      congr 3
      rw [show i.succ = i + 1 from rfl, UInt32.ofNat_add, UInt32.add_assoc g.counter, UInt32.add_comm 1]
      rfl

/-- The time given is the time read back. -/
theorem C60_timestamp (g : Gen) (t : UInt32) : timestamp (mint g t).1 = t.toNat := by
  have h : (mint g t).1.take 4 = low 4 t.toNat := by
    unfold mint
    simp only
    rw [List.append_assoc, List.take_left' (low_length 4 _)]
  have hv := low_value 4 t.toNat
  unfold timestamp
  rw [h]
  have ht := t.toNat_lt
  rw [Nat.mod_eq_of_lt (by omega)] at hv
  unfold value low low low low low at *
  simp only [List.foldl_cons, List.foldl_nil] at hv ⊢
  omega

/-- Of the identifiers a process makes one after the other, at whatever times, those less than 2^24 apart are different.
Missing: those further apart (`C60_wrap_fails`), those of other processes (`C60_process_fails`). -/
theorem C60_unique_partial (rng : UInt32 → Nat → Nat) (ts : List UInt32) (i j : Nat) (x y : Bytes) (hi : (ids rng ts)[i]? = some x)
    (hj : (ids rng ts)[j]? = some y) (h : i < j) (hd : j - i < 2 ^ 24) : eq x y = false := by
  cases ts with
  | nil => cases hi
  | cons t ts =>
    unfold ids at hi hj
    rw [mintAll_at] at hi hj
    obtain ⟨t1, -, rfl⟩ := Option.map_eq_some_iff.mp hi
    obtain ⟨t2, -, rfl⟩ := Option.map_eq_some_iff.mp hj
    generalize (start rng t).random = r
    generalize (start rng t).counter = c
    rw [Bool.eq_false_iff]
    unfold eq
    rw [ne_eq, beq_iff_eq, (compare_value _ _ (by simp [low_length])).2]
    intro e
    have e3 := List.append_inj_right' e (by simp [low_length])
    have e4 := congrArg value e3
    rw [low_value, low_value] at e4
    simp only [UInt32.toNat_add, UInt32.toNat_ofNat'] at e4
    have := c.toNat_lt
    simp only [UInt32.toNat_one] at e4
    omega

example : (ids (fun _ n => n) [7, 7, 8]).length = 3 ∧ eq ((ids (fun _ n => n) [7, 7, 8])[0]) ((ids (fun _ n => n) [7, 7, 8])[1]) = false := by decide

/-- C60 in full, of the generator: all identifiers made are different, in one process and in two. -/
def C60_unique_claim : Prop := ∀ (rng : UInt32 → Nat → Nat) (ts us : List UInt32),
  (∀ (i j : Nat) (x y : Bytes), (ids rng ts)[i]? = some x → (ids rng ts)[j]? = some y → i < j → eq x y = false) ∧
  ∀ x ∈ ids rng ts, ∀ y ∈ ids rng us, eq x y = false

/-- After 2^24 identifiers within a second the first one comes again. -/
theorem C60_wrap_fails (rng : UInt32 → Nat → Nat) (t : UInt32) (i : Nat) :
    ∃ x, (ids rng (List.replicate (i + 2 ^ 24 + 1) t))[i]? = some x ∧ (ids rng (List.replicate (i + 2 ^ 24 + 1) t))[i + 2 ^ 24]? = some x := by
  obtain ⟨N, hN⟩ : ∃ N : Nat, N = 2 ^ 24 := ⟨_, rfl⟩
  rw [← hN, List.replicate_succ]
  unfold ids
  rw [mintAll_at, mintAll_at, ← List.replicate_succ, List.getElem?_replicate, List.getElem?_replicate, if_pos (by omega), if_pos (by omega)]
  refine ⟨_, rfl, ?_⟩
  have e : low 3 ((start rng t).counter + UInt32.ofNat (i + N) + 1).toNat = low 3 ((start rng t).counter + UInt32.ofNat i + 1).toNat := by
    apply eq_of_value _ _ (by simp [low_length])
    rw [low_value, low_value]
    simp only [UInt32.toNat_add, UInt32.toNat_ofNat', UInt32.toNat_one]
    omega
  rw [Option.map_some, e]

/-- Two processes that make their first identifiers in the same second make the same identifiers. -/
theorem C60_process_fails : ¬ C60_unique_claim := by
  intro h
  have := (h (fun _ _ => 0) [0] [0]).2 _ (List.mem_cons_self) _ (List.mem_cons_self)
  revert this
  decide

end Verif.Oid
