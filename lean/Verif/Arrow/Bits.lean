import Verif.Arrow.Spec
import Verif.NestCol.Cols
import Mathlib.Tactic.IntervalCases
/-! Buffers of bits. -/
namespace Verif.Arrow
open Verif
open Verif.Table
open Verif.NestCol

theorem getBit_full {n p : Nat} (h : p < n) : getBit (fullBits n) p = some true := by
  have hp : p / 8 < (n + 7) / 8 := by omega
  unfold getBit fullBits
  rw [List.getElem?_replicate, if_pos hp]
  have h8 : p % 8 < 8 := Nat.mod_lt _ (by decide)
  simp only [Option.map_some, Option.some.injEq]
  generalize p % 8 = q at *
  interval_cases q <;> rfl

theorem bit_clear (b : Byte) (i j : Nat) (hi : i < 8) (hj : j < 8) :
    (b &&& ~~~(1#8 <<< i)).getLsbD j = (b.getLsbD j && decide (i ≠ j)) := by
  simp only [BitVec.getLsbD_and, BitVec.getLsbD_not, BitVec.getLsbD_shiftLeft, hj, decide_true, Bool.true_and]
  congr 1
  by_cases hij : i = j
  · subst hij; simp
  · by_cases hlt : j < i
    · simp [hlt, hij]
    · have : j - i ≠ 0 := by omega
      simp [hlt, hij, BitVec.getLsbD_one, this]

theorem unsetBit_ok {bs : List Byte} {p : Nat} (h : p / 8 < bs.length) :
    ∃ bs', unsetBit bs p = .ok bs' ∧ bs'.length = bs.length ∧
      ∀ q, getBit bs' q = (getBit bs q).map fun b => b && decide (p ≠ q) := by
  refine ⟨_, by unfold unsetBit; rw [if_pos h], by simp, ?_⟩
  intro q
  unfold getBit
  rw [List.getElem?_modify]
  by_cases hq : p / 8 = q / 8
  · simp only [hq, if_true]
    cases hb : bs[q / 8]? with
    | none => rfl
    | some b =>
      simp only [Option.map_some, Option.map_eq_map, Option.some.injEq]
      rw [bit_clear _ _ _ (Nat.mod_lt _ (by decide)) (Nat.mod_lt _ (by decide))]
      congr 1
      rw [decide_eq_decide]
      omega
  · simp only [hq, if_false]
    cases hb : bs[q / 8]? with
    | none => rfl
    | some b =>
      have : p ≠ q := fun e => hq (by rw [e])
      simp [this]

theorem clearBits_ok : ∀ (fs : List Bool) (p : Nat) (bs : List Byte), p + fs.length ≤ 8 * bs.length →
    ∃ bs', clearBits p fs bs = .ok bs' ∧ bs'.length = bs.length ∧
      ∀ q, getBit bs' q = (getBit bs q).map fun b => b && (if p ≤ q then fs[q - p]?.getD true else true)
  | [], p, bs, _ => ⟨bs, rfl, rfl, fun q => by simp⟩
  | true :: fs, p, bs, h => by
    obtain ⟨bs', h1, h2, h3⟩ := clearBits_ok fs (p + 1) bs (by simp at h; omega)
    refine ⟨bs', h1, h2, fun q => ?_⟩
    rw [h3]
    congr 1
    funext b
    congr 1
    by_cases hq : p + 1 ≤ q
    · rw [if_pos hq, if_pos (by omega), show q - p = (q - (p + 1)) + 1 by omega, List.getElem?_cons_succ]
    · rw [if_neg hq]
      by_cases hp : p ≤ q
      · rw [if_pos hp, show q - p = 0 by omega]; rfl
      · rw [if_neg hp]
  | false :: fs, p, bs, h => by
    simp only [List.length_cons] at h
    obtain ⟨b1, e1, e2, e3⟩ := unsetBit_ok (bs := bs) (p := p) (by omega)
    obtain ⟨bs', h1, h2, h3⟩ := clearBits_ok fs (p + 1) b1 (by rw [e2]; omega)
    refine ⟨bs', by unfold clearBits; rw [e1]; exact h1, h2.trans e2, fun q => ?_⟩
    rw [h3, e3, Option.map_map]
    congr 1
    funext b
    simp only [Function.comp_apply, Bool.and_assoc]
    congr 1
    by_cases hq : p + 1 ≤ q
    · rw [if_pos hq, if_pos (by omega), show q - p = (q - (p + 1)) + 1 by omega, List.getElem?_cons_succ]
      have : p ≠ q := by omega
      simp [this]
    · rw [if_neg hq]
      by_cases hp : p = q
      · subst hp; simp
      · have : ¬ p ≤ q := by omega
        simp [hp, this]

theorem packBits_ok (fs : List Bool) :
    ∃ bs, packBits fs = .ok bs ∧ bs.length = (fs.length + 7) / 8 ∧ ∀ i < fs.length, getBit bs i = fs[i]? := by
  have hl : (fullBits fs.length).length = (fs.length + 7) / 8 := by simp [fullBits]
  obtain ⟨bs, h1, h2, h3⟩ := clearBits_ok fs 0 (fullBits fs.length) (by rw [hl]; omega)
  refine ⟨bs, h1, h2.trans hl, fun i hi => ?_⟩
  rw [h3, getBit_full hi]
  simp [List.getElem?_eq_getElem hi]

theorem shiftPass_length (c : Bool) (bs : List Byte) : (shiftPass c bs).1.length = bs.length := by
  induction bs with
  | nil => rfl
  | cons b bs ih => simp [shiftPass, ih]

/-- The bit carried out of a round is the first bit of the buffer. -/
theorem shiftPass_carry {c : Bool} {b : Byte} {bs : List Byte} : (shiftPass c (b :: bs)).2 = b.getLsbD 0 := rfl

theorem shift_bit (b : Byte) (x : Bool) (j : Nat) (hj : j < 8) :
    ((if x then 0x80#8 else 0#8) ||| (b >>> 1)).getLsbD j = if j = 7 then x else b.getLsbD (j + 1) := by
  rw [BitVec.getLsbD_or, BitVec.getLsbD_ushiftRight, Nat.add_comm 1 j]
  by_cases h7 : j = 7
  · subst h7
    rw [if_pos rfl, BitVec.getLsbD_of_ge b (7 + 1) (by decide), Bool.or_false]
    cases x <;> rfl
  · rw [if_neg h7]
    have : (if x then 0x80#8 else 0#8).getLsbD j = false := by
      cases x
      · simp
      · interval_cases j <;> first | rfl | exact absurd rfl h7
    rw [this, Bool.false_or]

theorem shiftPass_bit {c : Bool} : ∀ (bs : List Byte) (p : Nat), p + 1 < 8 * bs.length →
    getBit (shiftPass c bs).1 p = getBit bs (p + 1)
  | [], p, h => by simp at h
  | b :: bs, p, h => by
    simp only [List.length_cons] at h
    have h8 : p % 8 < 8 := Nat.mod_lt _ (by decide)
    by_cases hp : p < 8
    · unfold getBit
      rw [Nat.div_eq_of_lt hp, Nat.mod_eq_of_lt hp]
      simp only [shiftPass, List.getElem?_cons_zero, Option.map_some]
      rw [shift_bit _ _ _ hp]
      by_cases h7 : p = 7
      · subst h7
        rw [if_pos rfl]
        cases bs with
        | nil => simp at h
        | cons b' bs => simp [shiftPass]
      · rw [if_neg h7, Nat.div_eq_of_lt (by omega), Nat.mod_eq_of_lt (by omega)]
        rfl
    · have ih := shiftPass_bit (c := c) bs (p - 8) (by omega)
      unfold getBit at ih ⊢
      rw [show p / 8 = (p - 8) / 8 + 1 by omega, show (p + 1) / 8 = (p - 8 + 1) / 8 + 1 by omega,
        show p % 8 = (p - 8) % 8 by omega, show (p + 1) % 8 = (p - 8 + 1) % 8 by omega]
      simpa [shiftPass] using ih

theorem shiftRight_bit : ∀ (s : Nat) (c : Bool) (bs : List Byte) (p : Nat), p + s < 8 * bs.length →
    getBit (shiftRight s c bs) p = getBit bs (p + s)
  | 0, _, _, _, _ => rfl
  | s + 1, c, bs, p, h => by
    unfold shiftRight
    rw [shiftRight_bit s _ _ p (by rw [shiftPass_length]; omega), shiftPass_bit bs (p + s) (by omega)]
    rfl

theorem shiftRight_length : ∀ (s : Nat) (c : Bool) (bs : List Byte), (shiftRight s c bs).length = bs.length
  | 0, _, _ => rfl
  | s + 1, c, bs => by unfold shiftRight; rw [shiftRight_length, shiftPass_length]

theorem getBit_some {bs : List Byte} {p : Nat} (h : p < 8 * bs.length) : ∃ b, getBit bs p = some b := by
  have hp : p / 8 < bs.length := by omega
  exact ⟨_, by unfold getBit; rw [List.getElem?_eq_getElem hp]; rfl⟩

theorem bitsOf_ok {bs : List Byte} : ∀ (n p : Nat), p + n ≤ 8 * bs.length →
    ∃ l, bitsOf bs p n = .ok l ∧ l.length = n ∧ ∀ i < n, l[i]? = getBit bs (p + i)
  | 0, p, _ => ⟨[], rfl, rfl, fun i hi => by omega⟩
  | n + 1, p, h => by
    obtain ⟨l, h1, h2, h3⟩ := bitsOf_ok (bs := bs) n (p + 1) (by omega)
    obtain ⟨b, hb⟩ := getBit_some (bs := bs) (p := p) (by omega)
    refine ⟨b :: l, by unfold bitsOf; rw [hb, h1]; rfl, by simp [h2], fun i hi => ?_⟩
    cases i with
    | zero => rw [Nat.add_zero, hb]; rfl
    | succ i => rw [List.getElem?_cons_succ, h3 i (by omega), show p + 1 + i = p + (i + 1) by omega]

theorem slice_ok {β : Type} {l : List β} {o n : Nat} (h : o + n ≤ l.length) :
    ∃ r, slice l o n = .ok r ∧ r.length = n ∧ ∀ i < n, r[i]? = l[o + i]? := by
  refine ⟨_, by unfold slice; rw [if_pos h], by simp; omega, fun i hi => ?_⟩
  rw [List.getElem?_take, if_pos hi, List.getElem?_drop]

/-- Bits of a part of a buffer. -/
theorem getBit_part {bs r : List Byte} {o n p : Nat} (h : ∀ i < n, r[i]? = bs[o + i]?) (hp : p < 8 * n) :
    getBit r p = getBit bs (8 * o + p) := by
  unfold getBit
  rw [h (p / 8) (by omega), show (8 * o + p) / 8 = o + p / 8 by omega, show (8 * o + p) % 8 = p % 8 by omega]

/-- What a call of `get_validity` leaves in the mask. -/
def newMask (h : Hdr) (off : Nat) (mask : List Bool) (i : Nat) : Option Bool :=
  if h.nulls = 0 then mask[i]?
  else match h.bits with
    | none => mask[i]?
    | some _ => some (h.valid (off + i))

theorem getValidity_ok {h : Hdr} {off n : Nat} {m : List Bool} (hm : m.length = n) (hr : off + n ≤ h.off + h.len)
    (hb : ∀ bs, h.bits = some bs → (h.off + h.len + 7) / 8 ≤ bs.length) (hp : h.padded ∨ off = 0) :
    ∃ m', getValidity h off n m = .ok m' ∧ m'.length = n ∧ ∀ i < n, m'[i]? = newMask h off m i := by
  unfold getValidity newMask
  by_cases h0 : h.nulls = 0
  · exact ⟨m, by rw [if_pos h0], hm, fun i _ => by rw [if_pos h0]⟩
  · cases hbit : h.bits with
    | none => exact ⟨m, by rw [if_neg h0], hm, fun i _ => by rw [if_neg h0]⟩
    | some bs =>
      simp only [if_neg h0]
      have hlen := hb bs hbit
      have hval : ∀ p, p < 8 * bs.length → getBit bs p = some (h.valid p) := by
        intro p hp
        obtain ⟨b, hb⟩ := getBit_some hp
        unfold Hdr.valid
        rw [hbit]
        simp only [hb]
        cases b <;> rfl
      by_cases h8 : off % 8 = 0
      · rw [if_pos h8]
        obtain ⟨r, r1, r2, r3⟩ := slice_ok (l := bs) (o := off / 8) (n := (n + 7) / 8) (by omega)
        obtain ⟨l, l1, l2, l3⟩ := bitsOf_ok (bs := r) n 0 (by rw [r2]; omega)
        refine ⟨l, by rw [r1]; exact l1, l2, fun i hi => ?_⟩
        rw [l3 i hi, getBit_part r3 (by omega), show 8 * (off / 8) + (0 + i) = off + i by omega, hval _ (by omega)]
      · rw [if_neg h8]
        have hpad : (h.off + h.len + 7) / 8 + 1 ≤ bs.length := by
          rcases hp with hp | hp
          · exact hp bs hbit
          · omega
        obtain ⟨r, r1, r2, r3⟩ := slice_ok (l := bs) (o := off / 8) (n := (n + 7) / 8 + 1) (by omega)
        have hsl := shiftRight_length (off % 8) false r
        obtain ⟨l, l1, l2, l3⟩ := bitsOf_ok (bs := (shiftRight (off % 8) false r).take ((n + 7) / 8)) n 0 (by
          rw [List.length_take, hsl, r2]; omega)
        refine ⟨l, by rw [r1]; exact l1, l2, fun i hi => ?_⟩
        rw [l3 i hi]
        have e1 : getBit ((shiftRight (off % 8) false r).take ((n + 7) / 8)) (0 + i) = getBit (shiftRight (off % 8) false r) i := by
          unfold getBit
          rw [List.getElem?_take, if_pos (by omega), Nat.zero_add]
        rw [e1, shiftRight_bit _ _ _ _ (by rw [r2]; omega), getBit_part r3 (by omega),
          show 8 * (off / 8) + (i + off % 8) = off + i by omega, hval _ (by omega)]

end Verif.Arrow
