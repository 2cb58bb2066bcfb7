import Verif.ABuf.Spec
/-!
# C121: buffers for Arrow keep their bytes
-/
namespace Verif.ABuf

open Verif Spec

/-- Each bit is that of one of the next places. -/
def Or (w : Nat) (y z : Nat) : Prop := ∀ i, z.testBit i = true ↔ ∃ j, j < w ∧ y.testBit (i + j) = true

theorem or_step {w y z : Nat} (h : Or w y z) : Or (w + w) y (z ||| z >>> w) := by
  intro i
  rw [Nat.testBit_or, Nat.testBit_shiftRight, Bool.or_eq_true, h, h]
  constructor
  · rintro (⟨j, hj, hy⟩ | ⟨j, hj, hy⟩)
    · exact ⟨j, by omega, hy⟩
    · exact ⟨w + j, by omega, by rw [← hy]; congr 1; omega⟩
  · rintro ⟨j, hj, hy⟩
    by_cases hw : j < w
    · exact .inl ⟨j, hw, hy⟩
    · exact .inr ⟨j - w, by omega, by rw [← hy]; congr 1; omega⟩

theorem smear_or (y : Nat) : Or 64 y (smear y) := by
  have h1 : Or 1 y y := by
    intro i
    constructor
    · exact fun h => ⟨0, by omega, h⟩
    · rintro ⟨j, hj, h⟩
      have : j = 0 := by omega
      subst this; exact h
  exact or_step (or_step (or_step (or_step (or_step (or_step h1)))))

theorem smear_eq {y : Nat} (hy : y ≠ 0) (hlt : y < 2 ^ 64) : smear y = 2 ^ (y.log2 + 1) - 1 := by
  apply Nat.eq_of_testBit_eq
  intro i
  rw [Nat.testBit_two_pow_sub_one, Bool.eq_iff_iff, smear_or y i, decide_eq_true_iff]
  have hlog : y.log2 < 64 := (Nat.log2_lt hy).2 hlt
  constructor
  · rintro ⟨j, -, h⟩
    have := Nat.ge_two_pow_of_testBit h
    have := (Nat.le_log2 hy).2 this
    omega
  · intro hi
    refine ⟨y.log2 - i, by omega, ?_⟩
    rw [show i + (y.log2 - i) = y.log2 by omega]
    exact Nat.testBit_log2 hy

/-- **C121**: the capacity asked for is a power of two, enough, and less than twice what is needed. Only above 2⁶³ bytes there is none. -/
theorem C121_capacity (n : Nat) (hn : n < 2 ^ 64) :
    (2 ^ 63 < n → capacity n = .throws) ∧
    (n ≤ 2 ^ 63 → ∃ k, capacity n = .ok (2 ^ k) ∧ n ≤ 2 ^ k ∧ (1 < n → 2 ^ k < 2 * n)) := by
  by_cases h0 : n = 0
  · subst h0
    exact ⟨fun h => by omega, fun _ => ⟨1, rfl, by decide, fun h => by omega⟩⟩
  by_cases h1 : n = 1
  · subst h1
    exact ⟨fun h => by omega, fun _ => ⟨0, rfl, by decide, fun h => by omega⟩⟩
  have hy : n - 1 ≠ 0 := by omega
  have hs := smear_eq hy (by omega)
  have hpos : 0 < 2 ^ ((n - 1).log2 + 1) := Nat.two_pow_pos _
  have hup : n - 1 < 2 ^ ((n - 1).log2 + 1) := Nat.lt_log2_self
  have hlo : 2 ^ (n - 1).log2 ≤ n - 1 := Nat.log2_self_le hy
  have hc : smear (n - 1) + 1 = 2 ^ ((n - 1).log2 + 1) := by omega
  constructor
  · intro h
    have : (n - 1).log2 = 63 := by
      have h1 : 63 ≤ (n - 1).log2 := (Nat.le_log2 hy).2 (by omega)
      have h2 : (n - 1).log2 < 64 := (Nat.log2_lt hy).2 (by omega)
      omega
    unfold capacity
    rw [if_neg (by omega), hc, this]
    rfl
  · intro h
    have hlog : (n - 1).log2 < 63 := (Nat.log2_lt hy).2 (by omega)
    have hle : 2 ^ ((n - 1).log2 + 1) ≤ 2 ^ 63 := Nat.pow_le_pow_right (by omega) (by omega)
    refine ⟨(n - 1).log2 + 1, ?_, by omega, fun _ => ?_⟩
    · unfold capacity
      rw [if_neg (by omega), hc, Nat.mod_eq_of_lt (by omega), if_neg (by omega)]
    · rw [Nat.pow_succ]; omega

example : capacity 5 = .ok 8 ∧ capacity 8 = .ok 8 ∧ capacity (2 ^ 63 + 1) = .throws := by decide +kernel

theorem reserve_ok (b : Buf) {n : Nat} (hn : n ≤ 2 ^ 63) :
    ∃ x, b.reserve n = .ok ⟨b.mem ++ x, b.count⟩ ∧ n ≤ (b.mem ++ x).length := by
  obtain ⟨k, hc, hk, -⟩ := (C121_capacity n (by omega)).2 hn
  unfold Buf.reserve
  rw [hc]
  by_cases h : 2 ^ k ≤ b.mem.length
  · exact ⟨[], by simp [Res.bind, h], by simp; omega⟩
  · refine ⟨List.replicate (2 ^ k - b.mem.length) none, by simp [Res.bind, h], ?_⟩
    simp only [List.length_append, List.length_replicate]; omega

theorem fill_ok (v : UInt8) (k i : Nat) (m : List (Option UInt8)) (h : i + k ≤ m.length) :
    ∃ m', fill v k i m = .ok m' ∧ m'.length = m.length ∧
      ∀ j, (i ≤ j → j < i + k → m'[j]? = some (some v)) ∧ ((j < i ∨ i + k ≤ j) → m'[j]? = m[j]?) := by
  induction k generalizing i m with
  | zero => exact ⟨m, rfl, rfl, fun j => ⟨fun h1 h2 => by omega, fun _ => rfl⟩⟩
  | succ k ih =>
    obtain ⟨m', h1, h2, h3⟩ := ih (i + 1) (m.set i (some v)) (by simp; omega)
    refine ⟨m', ?_, by simpa using h2, fun j => ⟨fun hj hj' => ?_, fun hj => ?_⟩⟩
    · unfold fill
      rw [if_pos (by omega), h1]
    · by_cases e : j = i
      · subst e
        rw [(h3 j).2 (by omega), List.getElem?_set_self (by omega)]
      · exact (h3 j).1 (by omega) (by omega)
    · rw [(h3 j).2 (by omega), List.getElem?_set_ne (by omega)]

theorem toLength_length (l : List (Option UInt8)) (n x) : (toLength l n x).length = n := by
  simp only [toLength, List.length_append, List.length_take, List.length_replicate]; omega

theorem toLength_get {l : List (Option UInt8)} {n x i} {v : UInt8} (h : (toLength l n x)[i]? = some (some v)) :
    i < n ∧ (l[i]? = some (some v) ∨ (l.length ≤ i ∧ x = some v)) := by
  have hi : i < n := by
    have := (List.getElem?_eq_some_iff.1 h).1
    rwa [toLength_length] at this
  refine ⟨hi, ?_⟩
  unfold toLength at h
  by_cases hl : i < l.length
  · rw [List.getElem?_append_left (by simp; omega), List.getElem?_take_of_lt hi] at h
    exact .inl h
  · rw [List.getElem?_append_right (by simp; omega), List.getElem?_replicate] at h
    split at h
    · cases h; exact .inr ⟨by omega, rfl⟩
    · cases h

theorem app_get {m x : List (Option UInt8)} {i : Nat} {v : UInt8} (h : m[i]? = some (some v)) : (m ++ x)[i]? = some (some v) := by
  rw [List.getElem?_append_left (List.getElem?_eq_some_iff.1 h).1, h]

theorem fill_shows {b : Buf} {l : List (Option UInt8)} (hs : Shows b l) {n : Nat} (hn : n ≤ 2 ^ 63) (v : UInt8) :
    ∃ b', b.resizeFill n v = .ok b' ∧ Shows b' (toLength l n (some v)) := by
  obtain ⟨h1, h2, h3⟩ := hs
  obtain ⟨x, hr, hx⟩ := reserve_ok b hn
  have hlen : b.count + (n - b.count) ≤ (b.mem ++ x).length := by
    simp only [List.length_append] at hx ⊢; omega
  obtain ⟨m', hf, hml, hm⟩ := fill_ok v (n - b.count) b.count (b.mem ++ x) hlen
  refine ⟨⟨m', n⟩, by simp only [Buf.resizeFill, hr, Res.bind, hf], (toLength_length ..).symm, ?_, ?_⟩
  · rw [toLength_length, hml]; exact hx
  · intro i w hw
    obtain ⟨hi, hw | ⟨hl, hv⟩⟩ := toLength_get hw
    · have : i < l.length := (List.getElem?_eq_some_iff.1 hw).1
      simp only
      rw [(hm i).2 (by omega)]
      exact app_get (h3 i w hw)
    · cases hv
      exact (hm i).1 (by omega) (by omega)

theorem bytesFor_eq (rows : Nat) (h : rows + 7 < 2 ^ 64) : (rows + 7) % 2 ^ 64 / 8 = bytesFor rows := by
  rw [Nat.mod_eq_of_lt h]
  unfold bytesFor
  split <;> omega

theorem step_shows {b : Buf} {l : List (Option UInt8)} (hs : Shows b l) {o : Op} (hf : Fits l o) :
    ∃ b', step b o = .ok b' ∧ Shows b' (after l o) := by
  cases o with
  | reserve n =>
    obtain ⟨x, hr, -⟩ := reserve_ok b (n := n) hf
    refine ⟨_, hr, hs.1, ?_, fun i v h => app_get (hs.2.2 i v h)⟩
    have := hs.2.1
    simp only [List.length_append, after]; omega
  | resize n =>
    obtain ⟨x, hr, hx⟩ := reserve_ok b (n := n) hf
    refine ⟨⟨b.mem ++ x, n⟩, by simp only [step, Buf.resize, hr, Res.bind], (toLength_length ..).symm, ?_, ?_⟩
    · simp only [after, toLength_length]; exact hx
    · intro i v h
      obtain ⟨-, h | ⟨-, h⟩⟩ := toLength_get h
      · exact app_get (hs.2.2 i v h)
      · cases h
  | resizeFill n v => exact fill_shows hs hf v
  | validity rows =>
    have hf' : rows + 7 < 2 ^ 64 := hf
    have he := bytesFor_eq rows hf'
    simp only [step, Buf.validity, after, he]
    refine fill_shows hs ?_ 255
    unfold bytesFor
    split <;> omega
  | write i v =>
    have hi : i < l.length := hf
    have hm := hs.2.1
    refine ⟨⟨b.mem.set i (some v), b.count⟩, by simp only [step, Buf.write]; rw [if_pos (by omega)], ?_, ?_, ?_⟩
    · simp only [after, List.length_set]; exact hs.1
    · simp only [after, List.length_set]; exact hm
    · intro j w hw
      simp only [after] at hw ⊢
      by_cases e : i = j
      · subst e
        rw [List.getElem?_set_self hi] at hw
        rw [List.getElem?_set_self (by omega)]; exact hw
      · rw [List.getElem?_set_ne e] at hw ⊢
        exact hs.2.2 j w hw

/-- **C121**: after any sequence of reserving, resizing, filling and writing, with no size above 2⁶³, a buffer has the size asked for last and
every byte shows what was last put there. -/
theorem C121_bytes (os : List Op) (hf : AllFit [] os) : ∃ b, run new os = .ok b ∧ Shows b (os.foldl after []) := by
  suffices h : ∀ (b : Buf) (l : List (Option UInt8)), Shows b l → AllFit l os → ∃ b', run b os = .ok b' ∧ Shows b' (os.foldl after l) from
    h new [] ⟨rfl, by simp, by simp⟩ hf
  clear hf
  induction os with
  | nil => exact fun b l hs _ => ⟨b, rfl, hs⟩
  | cons o os ih =>
    intro b l hs hf
    obtain ⟨b1, h1, hs1⟩ := step_shows hs hf.1
    obtain ⟨b2, h2, hs2⟩ := ih b1 _ hs1 hf.2
    exact ⟨b2, by simp only [run, h1, Res.bind, h2], hs2⟩

example : AllFit [] [.validity 9, .write 1 3, .resize 1, .resizeFill 3 7] := by simp [AllFit, Fits, after, toLength, bytesFor]
example : ([.validity 9, .write 1 3, .resize 1, .resizeFill 3 7] : List Op).foldl after [] = [some 255, some 7, some 7] := by decide

/-- **C121**: the bits of rows that are new are set, those of rows before, in the same bytes or not, stay. -/
theorem C121_validity (b : Buf) (l : List (Option UInt8)) (hs : Shows b l) (rows : Nat) (hr : rows + 7 < 2 ^ 64) (r : Nat) (h : r < rows) :
    ∃ b', b.validity rows = .ok b' ∧ r / 8 < b'.count ∧
      (l.length ≤ r / 8 → ∃ x, b'.mem[r / 8]? = some (some x) ∧ x.toNat.testBit (r % 8) = true) ∧
      ∀ x, l[r / 8]? = some (some x) → b'.mem[r / 8]? = some (some x) := by
  obtain ⟨b', h1, h2⟩ := step_shows (o := .validity rows) hs hr
  have hb : r / 8 < bytesFor rows := by unfold bytesFor; split <;> omega
  have hc : b'.count = bytesFor rows := by rw [h2.1]; exact toLength_length ..
  refine ⟨b', h1, by omega, fun hl => ⟨255, h2.2.2 _ _ ?_, ?_⟩, fun x hx => h2.2.2 _ _ ?_⟩
  · simp only [after, toLength]
    rw [List.getElem?_append_right (by simp; omega), List.getElem?_replicate, if_pos (by simp; omega)]
  · have : r % 8 < 8 := Nat.mod_lt _ (by omega)
    show (2 ^ 8 - 1).testBit (r % 8) = true
    rw [Nat.testBit_two_pow_sub_one]; simpa using this
  · have : r / 8 < l.length := (List.getElem?_eq_some_iff.1 hx).1
    simp only [after, toLength]
    rw [List.getElem?_append_left (by simp; omega), List.getElem?_take_of_lt hb, hx]

example : Shows ⟨[some 254, none], 1⟩ [some 254] := ⟨rfl, by decide, by
  intro i v h
  cases i with
  | zero => simpa using h
  | succ i => simp at h⟩

theorem push_ok {b : Buf} {ws v : List UInt8} (hm : ws.length ≤ b.mem.length) (ht : b.mem.take ws.length = ws.map some)
    (hw : ws.length = b.count * v.length) (hn : v.length * (b.count + 1) ≤ 2 ^ 63) :
    ∃ b', b.push v = .ok b' ∧ b'.count = b.count + 1 ∧ (ws ++ v).length ≤ b'.mem.length ∧ b'.mem.take (ws ++ v).length = (ws ++ v).map some := by
  obtain ⟨x, hr, hx⟩ := reserve_ok b hn
  have hmul : v.length * (b.count + 1) = ws.length + v.length := by rw [hw, Nat.mul_add, Nat.mul_one, Nat.mul_comm]
  have hfit : ws.length + v.length ≤ (b.mem ++ x).length := by omega
  have ht' : (b.mem ++ x).take ws.length = ws.map some := by
    rw [List.take_append_of_le_length hm, ht]
  refine ⟨⟨ws.map some ++ v.map some ++ (b.mem ++ x).drop (ws.length + v.length), b.count + 1⟩, ?_, rfl, ?_, ?_⟩
  · simp only [Buf.push]
    rw [Nat.mod_eq_of_lt (by omega), hr]
    simp only [Res.bind, ← hw]
    rw [if_pos hfit, ht']
  · simp only [List.length_append, List.length_map]; omega
  · have : (ws ++ v).length = (ws.map some ++ v.map (some : UInt8 → Option UInt8)).length := by simp
    rw [this, List.take_left, List.map_append]

/-- **C121**: values of one size pushed one after the other lie one after the other, and their number is the size. -/
theorem C121_pushed (s : Nat) (vs : List (List UInt8)) (hv : ∀ v ∈ vs, v.length = s) (hn : s * vs.length ≤ 2 ^ 63) :
    ∃ b, pushAll new vs = .ok b ∧ b.count = vs.length ∧ b.mem.take (s * vs.length) = vs.flatten.map some := by
  suffices h : ∀ (vs : List (List UInt8)) (b : Buf) (ws : List UInt8), (∀ v ∈ vs, v.length = s) → s * (b.count + vs.length) ≤ 2 ^ 63 →
      ws.length = b.count * s → ws.length ≤ b.mem.length → b.mem.take ws.length = ws.map some →
      ∃ b', pushAll b vs = .ok b' ∧ b'.count = b.count + vs.length ∧ b'.mem.take (ws ++ vs.flatten).length = (ws ++ vs.flatten).map some by
    obtain ⟨b, h1, h2, h3⟩ := h vs new [] hv (by simpa [new] using hn) (by simp [new]) (by simp) (by simp)
    refine ⟨b, h1, by simpa [new] using h2, ?_⟩
    have hl : vs.flatten.length = s * vs.length := by
      clear h1 h2 h3 h hn
      induction vs with
      | nil => simp
      | cons v vs ih =>
        rw [List.flatten_cons, List.length_append, ih fun w hw => hv w (by simp [hw]), hv v (by simp), List.length_cons, Nat.mul_add]
        omega
    simpa [hl] using h3
  intro vs
  induction vs with
  | nil => intro b ws _ _ _ _ ht; exact ⟨b, rfl, rfl, by simpa using ht⟩
  | cons v vs ih =>
    intro b ws hv hn hw hm ht
    have hvs := hv v (by simp)
    have hle : s * (b.count + 1) ≤ s * (b.count + (v :: vs).length) := Nat.mul_le_mul_left _ (by simp)
    obtain ⟨b1, h1, h2, h3, h4⟩ := push_ok (v := v) hm ht (by rw [hvs]; exact hw) (by rw [hvs]; omega)
    obtain ⟨b2, h5, h6, h7⟩ := ih b1 (ws ++ v) (fun w hw => hv w (by simp [hw]))
      (by rw [h2]; simpa [Nat.add_assoc, Nat.add_comm 1] using hn) (by rw [List.length_append, hw, h2, hvs, Nat.add_mul]; omega) h3 h4
    refine ⟨b2, by simp only [pushAll, h1, Res.bind, h5], by rw [h6, h2, List.length_cons]; omega, ?_⟩
    simpa [List.append_assoc] using h7

example : ∃ b, pushAll new [[1, 2], [3, 4], [5, 6]] = .ok b ∧ b.count = 3 := ⟨_, rfl, rfl⟩

/-- **C121**, as it should hold: growing a buffer with a byte does not change the values pushed before. -/
def C121_claim : Prop :=
  ∀ (v : List UInt8) (n : Nat) (x : UInt8) (b : Buf), v.length ≤ n → n ≤ 2 ^ 63 → ((new.push v).bind fun b => b.resizeFill n x) = .ok b →
    b.mem.take v.length = v.map some

/-- **C121** fails if values are pushed and the buffer is resized: pushing counts values, resizing counts bytes. -/
theorem C121_fails : ¬ C121_claim := by
  intro h
  have := h [1, 2, 3, 4] 8 255 _ (by decide) (by decide) rfl
  revert this
  decide +kernel

end Verif.ABuf
