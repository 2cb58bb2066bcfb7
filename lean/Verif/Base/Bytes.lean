/-!
Bytes and big-endian numbers, shared by the byte-level models.
No `/repo` code is modelled here; these are the arithmetic facts behind
`append_size`/`append_crc32` (services/wal/dto.cpp:15-25) and the msgpack wire format.
-/
namespace Verif

abbrev Bytes := List UInt8

/-- `k` bytes of `n`, most significant first (excess high part dropped). -/
def beBytes : Nat → Nat → Bytes
  | 0, _ => []
  | k + 1, n => beBytes k (n / 256) ++ [UInt8.ofNat n]

/-- Value of a big-endian byte string. -/
def beNat : Bytes → Nat := List.foldl (fun acc b => acc * 256 + b.toNat) 0

@[simp] theorem beBytes_length (k n : Nat) : (beBytes k n).length = k := by
  induction k generalizing n with
  | zero => rfl
  | succ k ih => simp [beBytes, ih]

theorem beNat_append_singleton (l : Bytes) (b : UInt8) : beNat (l ++ [b]) = beNat l * 256 + b.toNat := by
  simp [beNat, List.foldl_append]

theorem beNat_beBytes (k n : Nat) : beNat (beBytes k n) = n % 256 ^ k := by
  induction k generalizing n with
  | zero => simp [beBytes, beNat, Nat.mod_one]
  | succ k ih =>
    rw [beBytes, beNat_append_singleton, ih]
    have h : (UInt8.ofNat n).toNat = n % 256 := by simp
    rw [h, Nat.pow_succ]
    rw [Nat.mul_comm (256 ^ k) 256, Nat.mod_mul]
    omega

theorem beNat_beBytes_of_lt {k n : Nat} (h : n < 256 ^ k) : beNat (beBytes k n) = n := by
  rw [beNat_beBytes, Nat.mod_eq_of_lt h]

theorem beNat_lt (l : Bytes) : beNat l < 256 ^ l.length := by
  have aux : ∀ (l : Bytes) (acc : Nat),
      l.foldl (fun acc b => acc * 256 + b.toNat) acc < (acc + 1) * 256 ^ l.length := by
    intro l
    induction l with
    | nil => intro acc; simp
    | cons b l ih =>
      intro acc
      have hb : b.toNat < 256 := b.toNat_lt
      have h1 := ih (acc * 256 + b.toNat)
      simp only [List.foldl_cons, List.length_cons, Nat.pow_succ]
      refine Nat.lt_of_lt_of_le h1 ?_
      rw [Nat.mul_comm (256 ^ l.length) 256, ← Nat.mul_assoc]
      exact Nat.mul_le_mul_right _ (by omega)
  have := aux l 0
  simpa [beNat] using this

/-- First `n` bytes and the rest, or `none` if there are fewer than `n`. -/
def takeN (n : Nat) (bs : Bytes) : Option (Bytes × Bytes) :=
  if n ≤ bs.length then some (bs.take n, bs.drop n) else none

theorem takeN_append {n : Nat} {a b : Bytes} (h : a.length = n) : takeN n (a ++ b) = some (a, b) := by
  subst h
  simp [takeN]

theorem takeN_eq_some {n : Nat} {bs a r : Bytes} (h : takeN n bs = some (a, r)) :
    bs = a ++ r ∧ a.length = n := by
  unfold takeN at h
  split at h
  · simp at h
    obtain ⟨rfl, rfl⟩ := h
    constructor
    · simp
    · simp; omega
  · simp at h

end Verif
