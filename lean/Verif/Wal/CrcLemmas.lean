import Verif.Wal.Crc
namespace Verif.Crc
open Verif

theorem shift_xor (a b : Reg) : shift (a ^^^ b) = shift a ^^^ shift b := by
  apply BitVec.eq_of_getLsbD_eq
  intro i hi
  simp only [shift, BitVec.getLsbD_xor, BitVec.getLsbD_ushiftRight]
  cases ha : a.getLsbD 0 <;> cases hb : b.getLsbD 0 <;> simp [Bool.xor_comm, Bool.xor_left_comm]

theorem shift_eq_zero {a : Reg} (h : shift a = 0#32) : a = 0#32 := by
  have hp : poly.getLsbD 31 = true := by decide
  have h31 : (shift a).getLsbD 31 = a.getLsbD 0 := by
    simp only [shift, BitVec.getLsbD_xor, BitVec.getLsbD_ushiftRight]
    cases a.getLsbD 0 <;> simp [hp]
  rw [h] at h31
  have h0 : a.getLsbD 0 = false := by simpa using h31.symm
  apply BitVec.eq_of_getLsbD_eq
  intro i hi
  cases i with
  | zero => simpa using h0
  | succ i =>
    have := congrArg (fun x => x.getLsbD i) h
    simp only [shift, h0, BitVec.getLsbD_xor, BitVec.getLsbD_ushiftRight] at this
    simpa [Nat.add_comm] using this

theorem xor_eq_zero_iff' {a b : Reg} : a ^^^ b = 0#32 ↔ a = b := by
  constructor
  · intro h
    have : a ^^^ b ^^^ b = 0#32 ^^^ b := by rw [h]
    simpa [BitVec.xor_assoc] using this
  · rintro rfl; simp

theorem shift_inj {a b : Reg} (h : shift a = shift b) : a = b := by
  rw [← xor_eq_zero_iff'] at h ⊢
  rw [← shift_xor] at h
  exact shift_eq_zero h

theorem step_inj {a b : Reg} {x : Bool} (h : step a x = step b x) : a = b := by
  have := shift_inj h
  rw [← xor_eq_zero_iff'] at this ⊢
  have e : a ^^^ ofBit x ^^^ (b ^^^ ofBit x) = a ^^^ b := by
    rw [BitVec.xor_assoc, BitVec.xor_comm b, ← BitVec.xor_assoc (ofBit x)]
    simp
  rwa [e] at this

theorem feed_inj {l : List Bool} {a b : Reg} (h : feed a l = feed b l) : a = b := by
  induction l generalizing a b with
  | nil => exact h
  | cons x l ih => exact step_inj (ih h)

theorem feed_append (s : Reg) (l m : List Bool) : feed s (l ++ m) = feed (feed s l) m := by
  simp [feed, List.foldl_append]

/-- A bit string packed into a register, first bit lowest. -/
def pack : List Bool → Reg
  | [] => 0#32
  | b :: l => ofBit b ^^^ (pack l <<< 1)

theorem ofBit_getLsbD (b : Bool) (i : Nat) : (ofBit b).getLsbD i = (decide (i = 0) && b) := by
  cases b
  · simp [ofBit]
  · simp [ofBit, BitVec.getLsbD_one]

theorem pack_getLsbD (l : List Bool) (i : Nat) (hi : i < 32) :
    (pack l).getLsbD i = l.getD i false := by
  induction l generalizing i with
  | nil => simp [pack]
  | cons b l ih =>
    rw [pack, BitVec.getLsbD_xor, ofBit_getLsbD, BitVec.getLsbD_shiftLeft]
    cases i with
    | zero => simp
    | succ i =>
      have := ih i (by omega)
      simp [this, hi]

def iter : Nat → Reg → Reg
  | 0, s => s
  | n + 1, s => iter n (shift s)

theorem iter_inj {n : Nat} {a b : Reg} (h : iter n a = iter n b) : a = b := by
  induction n generalizing a b with
  | zero => exact h
  | succ n ih => exact shift_inj (ih h)

theorem shift_shl {y : Reg} (h : y.getLsbD 31 = false) : shift (y <<< 1) = y := by
  have h0 : (y <<< 1).getLsbD 0 = false := by simp
  apply BitVec.eq_of_getLsbD_eq
  intro i hi
  simp only [shift, h0, BitVec.getLsbD_xor, BitVec.getLsbD_ushiftRight, BitVec.getLsbD_shiftLeft]
  by_cases h31 : i = 31
  · subst h31
    rw [h]
    simp
  · have : 1 + i < 32 := by omega
    simp [this]

theorem feed_pack (l : List Bool) (s : Reg) (h : l.length ≤ 32) :
    feed s l = iter l.length (s ^^^ pack l) := by
  induction l generalizing s with
  | nil => simp [feed, iter, pack]
  | cons b l ih =>
    have hl : l.length ≤ 32 := by simp at h; omega
    have h31 : (pack l).getLsbD 31 = false := by
      rw [pack_getLsbD l 31 (by omega)]
      simp at h
      rw [List.getD_eq_getElem?_getD, List.getElem?_eq_none (by omega)]
      rfl
    show feed (step s b) l = _
    rw [ih _ hl]
    simp only [List.length_cons, iter, pack]
    rw [← BitVec.xor_assoc, shift_xor, shift_shl h31]
    rfl

theorem pack_inj {l m : List Bool} (hlen : l.length = m.length) (h : l.length ≤ 32) (e : pack l = pack m) : l = m := by
  apply List.ext_getElem hlen
  intro i h1 h2
  have := congrArg (fun x => x.getLsbD i) e
  simp only [pack_getLsbD _ i (by omega)] at this
  simpa [List.getD_eq_getElem?_getD, List.getElem?_eq_getElem h1, List.getElem?_eq_getElem h2] using this

/-- Two bit strings that differ only inside a window of at most 32 bits leave the register in
different states. -/
theorem feed_burst {s : Reg} {a m m' z : List Bool} (hlen : m.length = m'.length) (h32 : m.length ≤ 32)
    (hne : m ≠ m') : feed s (a ++ m ++ z) ≠ feed s (a ++ m' ++ z) := by
  intro h
  simp only [feed_append] at h
  have h1 := feed_inj h
  rw [feed_pack m _ h32, feed_pack m' _ (by omega), ← hlen] at h1
  have h2 := iter_inj h1
  apply hne
  apply pack_inj hlen h32
  rw [← xor_eq_zero_iff'] at h2 ⊢
  have e : ∀ x : Reg, x ^^^ pack m ^^^ (x ^^^ pack m') = pack m ^^^ pack m' := by
    intro x
    rw [BitVec.xor_comm x, BitVec.xor_assoc, ← BitVec.xor_assoc x]
    simp
  rwa [e] at h2

theorem crc32c_lt (bs : Bytes) : crc32c bs < 2 ^ 32 := BitVec.isLt _

theorem crc32c_burst {p p' : Bytes} {a m m' z : List Bool} (hp : bitsOf p = a ++ m ++ z)
    (hp' : bitsOf p' = a ++ m' ++ z) (hlen : m.length = m'.length) (h32 : m.length ≤ 32) (hne : m ≠ m') :
    crc32c p ≠ crc32c p' := by
  intro h
  unfold crc32c at h
  have h1 := BitVec.eq_of_toNat_eq h
  apply feed_burst (s := 0xFFFFFFFF#32) (a := a) (z := z) hlen h32 hne
  rw [← hp, ← hp']
  have h2 : ∀ x y : Reg, x ^^^ 0xFFFFFFFF#32 = y ^^^ 0xFFFFFFFF#32 → x = y := by
    intro x y e
    have := congrArg (· ^^^ 0xFFFFFFFF#32) e
    simpa [BitVec.xor_assoc] using this
  exact h2 _ _ h1

end Verif.Crc
