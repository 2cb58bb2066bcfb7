import Verif.UVec.Spec
/-!
# C119: vectors of plain values keep what is written to them
-/
namespace Verif.UVec

open Verif

/-- The sizes asked for fit into 64 bits of bytes, and there is no shrinking of a vector without elements. -/
def Plain {T : Type} (e : Elem T) : List (Option (List UInt8)) → List (Op T) → Prop
  | _, [] => True
  | l, o :: os => (match o with
      | .reserve n => n * e.s < 2 ^ 64
      | .resize n => n * e.s < 2 ^ 64
      | .shrink => l ≠ []
      | .set _ _ => True) ∧ Plain e (after e.enc l o) os

/-- What holds between a vector and the list it shows. -/
structure Rel {T : Type} (e : Elem T) (b : Buf) (l : List (Option (List UInt8))) : Prop where
  some_mem : b.mem ≠ []
  size_eq : b.size = l.length * e.s
  fits : b.size ≤ b.mem.length
  block : ∀ (i : Nat) (bs : List UInt8), l[i]? = some (some bs) →
    bs.length = e.s ∧ ∀ k, k < e.s → b.mem[i * e.s + k]? = some (bs[k]?)

theorem block_lt {s i n k : Nat} (hi : i < n) (hk : k < s) : i * s + k < n * s := by
  have : (i + 1) * s ≤ n * s := Nat.mul_le_mul_right s hi
  rw [Nat.succ_mul] at this; omega

theorem rel_shows {T : Type} {e : Elem T} {b : Buf} {l : List (Option (List UInt8))} (hs : 0 < e.s) (h : Rel e b l) :
    Shows e b l := by
  have hc : b.count e.s = l.length := by rw [Buf.count, h.size_eq, Nat.mul_div_cancel _ hs]
  refine ⟨hc, fun i bs hi => ?_⟩
  have hil : i < l.length := (List.getElem?_eq_some_iff.1 hi).1
  rw [get, if_pos (by rw [hc]; exact hil)]
  obtain ⟨h1, h2⟩ := h.block i bs hi
  congr 1
  refine List.ext_getElem? fun k => ?_
  by_cases hk : k < e.s
  · rw [List.getElem?_take_of_lt hk, List.getElem?_drop, h2 k hk]
    simp [List.getElem?_eq_getElem (h1 ▸ hk : k < bs.length)]
  · rw [List.getElem?_eq_none (by simp; omega), List.getElem?_eq_none (by simp; omega)]

/-- Copying into new memory keeps the bytes in use. -/
theorem copy_new {m : List (Option UInt8)} {size n : Nat} (h0 : m ≠ []) (h1 : size ≤ m.length) (h2 : size ≤ n) (h3 : 0 < n) :
    ∃ m', memcpy (new n).mem m size = .ok m' ∧ m'.length = n ∧ ∀ k, k < size → m'[k]? = m[k]? := by
  refine ⟨m.take size ++ (new n).mem.drop size, ?_, ?_, fun k hk => ?_⟩
  · rw [memcpy, if_neg]
    simp only [new, List.length_replicate]
    rintro (h | h | h | h)
    · have := congrArg List.length h; simp at this; omega
    · exact h0 h
    · omega
    · omega
  · simp [new]; omega
  · rw [List.getElem?_append_left (by simp; omega), List.getElem?_take_of_lt hk]

theorem ne_nil_of_len {A : Type} {l : List A} (h : 0 < l.length) : l ≠ [] := fun he => by simp [he] at h

theorem step_rel {T : Type} (e : Elem T) (hs : 0 < e.s) (henc : ∀ v, (e.enc v).length = e.s)
    (hz : ∀ v, e.isZero v → e.enc v = List.replicate e.s 0) (b : Buf) (l : List (Option (List UInt8))) (h : Rel e b l) (o : Op T)
    (os : List (Op T)) (hw : Within e.enc l (o :: os)) (hp : Plain e l (o :: os)) :
    ∃ b', step e b o = .ok b' ∧ Rel e b' (after e.enc l o) := by
  have hpos : 0 < b.mem.length := List.length_pos_iff.2 h.some_mem
  cases o with
  | reserve n =>
    have hn : bytes e.s n = n * e.s := Nat.mod_eq_of_lt hp.1
    simp only [step, hn, after, Buf.reserve]
    by_cases hc : b.mem.length < n * e.s
    · obtain ⟨m', e1, e2, e3⟩ := copy_new (n := n * e.s) h.some_mem h.fits (by have := h.fits; omega) (by omega)
      refine ⟨⟨m', b.size⟩, by rw [if_pos hc, e1]; rfl, ⟨ne_nil_of_len (l := m') (by omega), h.size_eq, by have := h.fits; simp only; omega, ?_⟩⟩
      intro i bs hi
      obtain ⟨h1, h2⟩ := h.block i bs hi
      refine ⟨h1, fun k hk => ?_⟩
      simp only
      rw [e3 _ (by rw [h.size_eq]; exact block_lt (List.getElem?_eq_some_iff.1 hi).1 hk), h2 k hk]
    · exact ⟨b, by rw [if_neg hc], h⟩
  | resize n =>
    have hn : bytes e.s n = n * e.s := Nat.mod_eq_of_lt hp.1
    have hlen : (after e.enc l (.resize n : Op T)).length = n := by simp [after]; omega
    have hget : ∀ (i : Nat) (bs : List UInt8), (after e.enc l (.resize n : Op T))[i]? = some (some bs) → i < n ∧ l[i]? = some (some bs) := by
      intro i bs hi
      have hlt : i < n := hlen ▸ (List.getElem?_eq_some_iff.1 hi).1
      refine ⟨hlt, ?_⟩
      simp only [after] at hi
      by_cases hil : i < l.length
      · rw [List.getElem?_append_left (by simp; omega), List.getElem?_take_of_lt hlt] at hi
        exact hi
      · rw [List.getElem?_append_right (by simp; omega), List.getElem?_replicate] at hi
        split at hi <;> simp at hi
    simp only [step, hn, Buf.resize]
    by_cases hc : n * e.s ≤ b.mem.length
    · refine ⟨{ b with size := n * e.s }, by rw [if_pos hc], ⟨h.some_mem, by simp [hlen], hc, ?_⟩⟩
      intro i bs hi
      exact h.block i bs (hget i bs hi).2
    · obtain ⟨m', e1, e2, e3⟩ := copy_new (n := n * e.s) h.some_mem h.fits (by have := h.fits; omega) (by omega)
      refine ⟨⟨m', n * e.s⟩, by rw [if_neg hc, e1]; rfl, ⟨ne_nil_of_len (l := m') (by omega), by simp [hlen], by simp only; omega, ?_⟩⟩
      intro i bs hi
      obtain ⟨_, hi⟩ := hget i bs hi
      obtain ⟨h1, h2⟩ := h.block i bs hi
      refine ⟨h1, fun k hk => ?_⟩
      simp only
      rw [e3 _ (by rw [h.size_eq]; exact block_lt (List.getElem?_eq_some_iff.1 hi).1 hk), h2 k hk]
  | shrink =>
    have hl : l ≠ [] := hp.1
    have hsz : 0 < b.size := by
      rw [h.size_eq]; exact Nat.mul_pos (List.length_pos_iff.2 hl) hs
    simp only [step, after, Buf.shrink]
    by_cases hc : b.size ≠ b.mem.length
    · obtain ⟨m', e1, e2, e3⟩ := copy_new (n := b.size) h.some_mem h.fits (Nat.le_refl _) hsz
      refine ⟨⟨m', b.size⟩, by rw [if_pos hc, if_pos hsz, e1]; rfl, ⟨ne_nil_of_len (l := m') (by omega), h.size_eq, by simp only; omega, ?_⟩⟩
      intro i bs hi
      obtain ⟨h1, h2⟩ := h.block i bs hi
      refine ⟨h1, fun k hk => ?_⟩
      simp only
      rw [e3 _ (by rw [h.size_eq]; exact block_lt (List.getElem?_eq_some_iff.1 hi).1 hk), h2 k hk]
    · exact ⟨b, by rw [if_neg hc], h⟩
  | set i v =>
    have hi : i < l.length := hw.1
    have hc : b.count e.s = l.length := by rw [Buf.count, h.size_eq, Nat.mul_div_cancel _ hs]
    have hb : (if e.isZero v then List.replicate e.s 0 else e.enc v) = e.enc v := by
      split
      · next hx => exact (hz v hx).symm
      · rfl
    have hle : i * e.s + e.s ≤ b.mem.length := by
      have := h.fits; rw [h.size_eq] at this
      have h2 : (i + 1) * e.s ≤ l.length * e.s := Nat.mul_le_mul_right _ hi
      rw [Nat.succ_mul] at h2; omega
    have hml : (putAt b.mem (i * e.s) (e.enc v)).length = b.mem.length := by
      simp [putAt, henc]; omega
    refine ⟨{ b with mem := putAt b.mem (i * e.s) (e.enc v) }, by rw [step, UVec.set, if_pos (by rw [hc]; exact hi), hb],
      ⟨ne_nil_of_len (by simp only [hml]; exact hpos), by simp [after, h.size_eq], by simp only [hml]; exact h.fits, ?_⟩⟩
    intro j bs hj
    simp only [after] at hj
    by_cases hij : i = j
    · subst hij
      rw [List.getElem?_set_self hi] at hj
      simp only [Option.some.injEq] at hj
      subst hj
      refine ⟨henc v, fun k hk => ?_⟩
      simp only [putAt, List.append_assoc]
      rw [List.getElem?_append_right (by simp; omega)]
      have e1 : i * e.s + k - (List.take (i * e.s) b.mem).length = k := by simp; omega
      rw [e1, List.getElem?_append_left (by simp [henc]; omega)]
      simp [List.getElem?_eq_getElem (show k < (e.enc v).length by rw [henc]; exact hk)]
    · rw [List.getElem?_set_ne hij] at hj
      obtain ⟨h1, h2⟩ := h.block j bs hj
      refine ⟨h1, fun k hk => ?_⟩
      rw [← h2 k hk]
      simp only [putAt, List.append_assoc]
      rcases Nat.lt_or_ge j i with hlt | hge
      · have := block_lt hlt hk
        rw [List.getElem?_append_left (by simp; omega), List.getElem?_take_of_lt this]
      · have hgt : i < j := by omega
        have h3 : (i + 1) * e.s ≤ j * e.s := Nat.mul_le_mul_right _ hgt
        rw [Nat.succ_mul] at h3
        rw [List.getElem?_append_right (by simp; omega), List.getElem?_append_right (by simp [henc]; omega), List.getElem?_drop]
        congr 1
        simp [henc]; omega

theorem run_rel {T : Type} (e : Elem T) (hs : 0 < e.s) (henc : ∀ v, (e.enc v).length = e.s)
    (hz : ∀ v, e.isZero v → e.enc v = List.replicate e.s 0) : ∀ (os : List (Op T)) (b : Buf) (l : List (Option (List UInt8))),
    Rel e b l → Within e.enc l os → Plain e l os → ∃ b', run e b os = .ok b' ∧ Rel e b' (afterAll e.enc l os)
  | [], b, l, h, _, _ => ⟨b, rfl, h⟩
  | o :: os, b, l, h, hw, hp => by
    obtain ⟨b1, e1, h1⟩ := step_rel e hs henc hz b l h o os hw hp
    obtain ⟨b2, e2, h2⟩ := run_rel e hs henc hz os b1 _ h1 hw.2 hp.2
    exact ⟨b2, by rw [run, e1]; exact e2, h2⟩

/-- **C119**, for vectors that start with elements: after any reserving, resizing, shrinking and writing, in any order, the vector has
as many elements as asked for and each shows the value last written to it since it came into being.  Missing: vectors without
elements, sizes of 2⁶⁴ bytes and more and values equal to zero but not all zero bytes, see below. -/
theorem C119_vector_partial {T : Type} (e : Elem T) (n : Nat) (os : List (Op T)) (hs : 0 < e.s) (henc : ∀ v, (e.enc v).length = e.s)
    (hz : ∀ v, e.isZero v → e.enc v = List.replicate e.s 0) (hn : 0 < n) (hb : n * e.s < 2 ^ 64)
    (hw : Within e.enc (List.replicate n none) os) (hp : Plain e (List.replicate n none) os) :
    ∃ b, run e (make e n) os = .ok b ∧ Shows e b (afterAll e.enc (List.replicate n none) os) := by
  have hbn : bytes e.s n = n * e.s := Nat.mod_eq_of_lt hb
  have hpos : 0 < n * e.s := Nat.mul_pos hn hs
  obtain ⟨b, h1, h2⟩ := run_rel e hs henc hz os (make e n) (List.replicate n none)
    ⟨ne_nil_of_len (by simp [make, new, hbn]; exact hpos), by simp [make, new, hbn], by simp [make, new], fun i bs hi => by
      rw [List.getElem?_replicate] at hi; split at hi <;> simp at hi⟩ hw hp
  exact ⟨b, h1, rel_shows hs h2⟩

/-- A vector made of a range has its elements, if there are any. -/
theorem C119_made {T : Type} (e : Elem T) (xs : List T) (henc : ∀ v, (e.enc v).length = e.s) (hs : 0 < e.s)
    (hb : xs.length * e.s < 2 ^ 64) (hne : xs ≠ []) : ∃ b, fromList e xs = .ok b ∧ b.mem = (xs.flatMap e.enc).map some ∧
      b.count e.s = xs.length := by
  match xs, hne with
  | x :: xs, _ =>
    have hl : ∀ ys : List T, (ys.flatMap e.enc).length = ys.length * e.s := by
      intro ys
      induction ys with
      | nil => simp
      | cons y ys ih => rw [List.flatMap_cons, List.length_append, ih, henc]; simp [Nat.succ_mul]; omega
    have hbn : bytes e.s (xs.length + 1) = (xs.length + 1) * e.s := Nat.mod_eq_of_lt hb
    have hpos : 0 < (xs.length + 1) * e.s := Nat.mul_pos (by omega) hs
    have hlen : (((x :: xs).flatMap e.enc).map some).length = (xs.length + 1) * e.s := by
      rw [List.length_map, hl]; rfl
    refine ⟨⟨((x :: xs).flatMap e.enc).map some, (xs.length + 1) * e.s⟩, ?_, rfl, ?_⟩
    · simp only [fromList, make, new, hbn]
      rw [memcpy, if_neg]
      · simp only [Res.bind]
        rw [List.take_of_length_le (by omega), List.drop_of_length_le (by simp), List.append_nil]
      · rintro (h | h | h | h)
        · have := congrArg List.length h; simp at this; omega
        · rw [h] at hlen; simp only [List.length_nil] at hlen; omega
        · simp at h
        · omega
    · simp only [Buf.count]; rw [Nat.mul_div_cancel _ hs]; rfl

/-- A vector without elements cannot grow: `memcpy` gets a null pointer. -/
theorem C119_empty_is_ub {T : Type} (e : Elem T) (n : Nat) (hn : 0 < bytes e.s n) :
    step e (make e 0) (.resize n : Op T) = .ub ∧ step e (make e 0) (.reserve n : Op T) = .ub ∧ fromList e [] = .ub := by
  have h0 : (make e 0).mem = [] := by simp [make, new, bytes]
  refine ⟨?_, ?_, rfl⟩
  · simp only [step, Buf.resize, h0]
    rw [if_neg (by simp; omega)]; simp [memcpy, Res.bind]
  · simp only [step, Buf.reserve, h0]
    rw [if_pos (by simpa using hn)]; simp [memcpy, Res.bind]

/-- A vector of 8-byte values can be asked for 2⁶¹ elements, and has none afterwards. -/
theorem C119_huge_fails {T : Type} (e : Elem T) (h8 : e.s = 8) (b : Buf) :
    step e b (.resize (2 ^ 61) : Op T) = .ok { b with size := 0 } := by
  simp [step, Buf.resize, bytes, h8]

/-- `double` by its bits: 8 bytes, the lowest first; both zeros are equal to zero. -/
def dbl : Elem (BitVec 64) where
  s := 8
  enc v := (List.range 8).map fun k => UInt8.ofBitVec (v.extractLsb' (8 * k) 8)
  isZero v := v = 0#64 || v = 0x8000000000000000#64

/-- The sign of a zero is lost: minus zero is written, zero is read. -/
theorem C119_sign_fails : ∃ b, run dbl (make dbl 1) [.set 0 0x8000000000000000#64] = .ok b ∧
    get dbl b 0 = .ok (List.replicate 8 (some 0)) ∧
    (dbl.enc 0x8000000000000000#64).map some ≠ List.replicate 8 (some 0) :=
  ⟨_, rfl, by decide +kernel, by decide +kernel⟩

/-- **C119** in full does not hold. -/
theorem C119_fails : ¬ C119_vector_claim := by
  intro hc
  obtain ⟨b, h1, _, h3⟩ := hc _ dbl 1 [.set 0 0x8000000000000000#64] (by decide) (fun v => by simp [dbl]) (by simp [Within])
  obtain ⟨b', g1, g2, g3⟩ := C119_sign_fails
  rw [g1] at h1
  cases h1
  have := h3 0 (dbl.enc 0x8000000000000000#64) rfl
  rw [g2] at this
  exact g3 (Res.ok.inj this).symm

/-- 16-bit numbers, for a concrete case. -/
def u16 : Elem (BitVec 16) where
  s := 2
  enc v := [UInt8.ofBitVec (v.extractLsb' 0 8), UInt8.ofBitVec (v.extractLsb' 8 8)]
  isZero v := v = 0#16

def exOps : List (Op (BitVec 16)) := [.set 1 258#16, .resize 4, .set 3 0#16, .reserve 9, .resize 3, .shrink]

example : (∀ v, u16.isZero v → u16.enc v = List.replicate u16.s 0) ∧ (∀ v, (u16.enc v).length = u16.s) ∧
    Within u16.enc (List.replicate 2 none) exOps ∧ Plain u16 (List.replicate 2 none) exOps := by
  refine ⟨fun v hv => ?_, fun v => rfl, ?_, ?_⟩
  · simp only [u16, decide_eq_true_eq] at hv
    subst hv; rfl
  · simp [exOps, Within, after]
  · simp [exOps, Plain, after, u16]

example : afterAll u16.enc (List.replicate 2 none) exOps = [none, some [2, 1], none] := by decide +kernel

end Verif.UVec
