import Verif.Validity.Lemmas
/-! Counting set bits. -/
namespace Verif.Validity
open Verif

/-- Number of ones in the binary representation. -/
def popN (n : Nat) : Nat := if h : n = 0 then 0 else n % 2 + popN (n / 2)
termination_by n
decreasing_by omega

theorem popN_zero : popN 0 = 0 := by unfold popN; simp

theorem popN_step (n : Nat) : popN n = n % 2 + popN (n / 2) := by
  by_cases h : n = 0
  · subst h; simp [popN_zero]
  · conv => lhs; unfold popN
    simp [h]

theorem and_pred_mod (n : Nat) (h : 0 < n) : (n &&& (n - 1)) % 2 = 0 := by
  have h1 : ((n &&& (n - 1)) % 2 = 1) ↔ (n % 2 = 1 ∧ (n - 1) % 2 = 1) := Nat.and_mod_two_eq_one
  have : (n &&& (n - 1)) % 2 < 2 := Nat.mod_lt _ (by decide)
  by_cases hh : (n &&& (n - 1)) % 2 = 1
  · have := h1.mp hh; omega
  · omega

theorem popN_and_pred (n : Nat) (h : 0 < n) : popN (n &&& (n - 1)) + 1 = popN n := by
  induction n using Nat.strongRecOn with
  | _ n ih =>
    rw [popN_step (n &&& (n - 1)), and_pred_mod n h, Nat.and_div_two, popN_step n]
    by_cases hodd : n % 2 = 1
    · have : (n - 1) / 2 = n / 2 := by omega
      rw [this, Nat.and_self]
      omega
    · have : (n - 1) / 2 = n / 2 - 1 := by omega
      rw [this]
      have := ih (n / 2) (by omega) (by omega)
      omega

theorem countP_range_succ (p : Nat → Bool) (k : Nat) :
    (List.range (k + 1)).countP p = (if p 0 then 1 else 0) + (List.range k).countP (fun i => p (i + 1)) := by
  rw [List.range_succ_eq_map, List.countP_cons, List.countP_map]
  have : (p ∘ Nat.succ) = fun i => p (i + 1) := rfl
  rw [this, Nat.add_comm]

theorem popN_countP (k n : Nat) (h : n < 2 ^ k) : popN n = (List.range k).countP (fun i => n.testBit i) := by
  induction k generalizing n with
  | zero =>
    have : n = 0 := by omega
    subst this; simp [popN_zero]
  | succ k ih =>
    rw [countP_range_succ, popN_step, ih (n / 2) (by rw [Nat.pow_succ] at h; omega)]
    congr 1
    · rw [Nat.testBit_zero]
      rcases Nat.mod_two_eq_zero_or_one n with h | h <;> simp [h]
    · congr 1
      funext i
      rw [Nat.testBit_succ]

/-- Number of set bits of a word. -/
def pop (w : Word) : Nat := (List.range 64).countP (fun i => w.getLsbD i)

theorem pop_eq (w : Word) : pop w = popN w.toNat := by
  unfold pop
  rw [popN_countP 64 w.toNat w.isLt]
  rfl

theorem pop_le (w : Word) : pop w ≤ 64 := by
  unfold pop
  have := List.countP_le_length (p := fun i => w.getLsbD i) (l := List.range 64)
  simpa using this

theorem pop_and_pred (w : Word) (h : w ≠ 0#64) : pop (w &&& (w - 1#64)) + 1 = pop w := by
  have hpos : 0 < w.toNat := by
    rcases Nat.eq_zero_or_pos w.toNat with h0 | h0
    · exfalso; apply h; apply BitVec.eq_of_toNat_eq; simpa using h0
    · exact h0
  have hsub : (w - 1#64).toNat = w.toNat - 1 := by
    rw [BitVec.toNat_sub]
    have := w.isLt
    simp only [BitVec.toNat_ofNat]
    omega
  rw [pop_eq, pop_eq, BitVec.toNat_and, hsub]
  exact popN_and_pred _ hpos

theorem pop_pos (w : Word) (h : w ≠ 0#64) : 0 < pop w := by
  have := pop_and_pred w h
  omega

theorem popLoop_eq (fuel : Nat) (w : Word) (v : Nat) (h : pop w ≤ fuel) : popLoop fuel w v = v + pop w := by
  induction fuel generalizing w v with
  | zero =>
    unfold popLoop
    omega
  | succ f ih =>
    unfold popLoop
    by_cases hw : w = 0#64
    · subst hw
      have : pop 0#64 = 0 := by rw [pop_eq]; simp [popN_zero]
      simp [this]
    · rw [if_neg hw]
      have := pop_and_pred w hw
      rw [ih _ _ (by omega)]
      omega

theorem pop_max : pop maxEntry = 64 := by
  unfold pop
  rw [List.countP_eq_length.mpr]
  · simp
  · intro i hi
    simp at hi
    exact maxEntry_bit i hi

theorem countLoop_eq (count total : Nat) (hc : count % 64 = 0) (ws : List Word) (idx v : Nat) :
    countLoop count total ws idx v = v + (ws.map pop).sum := by
  induction ws generalizing idx v with
  | nil => simp [countLoop]
  | cons w ws ih =>
    unfold countLoop
    rw [if_neg (by simp [hc]), ih]
    by_cases hm : w = maxEntry
    · subst hm
      rw [if_pos rfl]
      simp [pop_max]; omega
    · rw [if_neg hm, popLoop_eq 64 w v (pop_le w)]
      simp; omega

theorem countP_bits (ws : List Word) (k : Nat) (hk : k ≤ ws.length) :
    (List.range (64 * k)).countP (bitAt ws) = ((ws.take k).map pop).sum := by
  induction k with
  | zero => simp
  | succ k ih =>
    have hlt : k < ws.length := by omega
    have hr : List.range (64 * (k + 1)) = List.range (64 * k) ++ (List.range 64).map (fun i => 64 * k + i) := by
      rw [Nat.mul_succ, List.range_add]
    rw [hr, List.countP_append, ih (by omega), List.take_succ_eq_append_getElem hlt, List.map_append, List.sum_append]
    congr 1
    rw [List.countP_map]
    simp only [List.map_cons, List.map_nil, List.sum_cons, List.sum_nil, Nat.add_zero]
    unfold pop
    apply List.countP_congr
    intro i hi
    simp at hi
    have e1 : (64 * k + i) / 64 = k := by omega
    have e2 : (64 * k + i) % 64 = i := by omega
    simp only [Function.comp, bitAt, e1, e2, List.getElem?_eq_getElem hlt]

end Verif.Validity
