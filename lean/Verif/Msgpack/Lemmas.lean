import Verif.Msgpack.Model
namespace Verif.Msgpack
open Verif

theorem readBE_beBytes {k n : Nat} (h : n < 256 ^ k) (r : Bytes) :
    readBE k (beBytes k n ++ r) = some (n, r) := by
  simp [readBE, takeN_append (beBytes_length k n), beNat_beBytes_of_lt h]

theorem toNat_ofNat_lt {n : Nat} (h : n < 256) : (UInt8.ofNat n).toNat = n := by
  simp; omega

mutual
/-- Nesting depth. -/
def depth : Val → Nat
  | .arr vs => depthList vs + 1
  | .map vs => depthList vs + 1
  | _ => 1
def depthList : List Val → Nat
  | [] => 0
  | v :: vs => max (depth v) (depthList vs)
end

theorem decode_uint (f n : Nat) (h : n < 2 ^ 64) (r : Bytes) :
    decode (f + 1) (encUInt n ++ r) = some (.uint n, r) := by
  unfold encUInt
  split
  · rename_i h1
    simp only [tag, List.cons_append, List.nil_append, decode, toNat_ofNat_lt (show n < 256 by omega)]
    rw [if_pos h1]
  · split
    · simp [tag, decode, readBE_beBytes (k := 1) (n := n) (by omega)]
    · split
      · simp [tag, decode, readBE_beBytes (k := 2) (n := n) (by omega)]
      · split
        · simp [tag, decode, readBE_beBytes (k := 4) (n := n) (by omega)]
        · simp [tag, decode, readBE_beBytes (k := 8) (n := n) (by omega)]

theorem decode_nint (f : Nat) (i : Int) (h : -2 ^ 63 ≤ i ∧ i < 0) (r : Bytes) :
    decode (f + 1) (encNInt i ++ r) = some (.nint i, r) := by
  unfold encNInt
  split
  · have h2 : (256 + i).toNat < 256 := by omega
    have h3 : 224 ≤ (256 + i).toNat := by omega
    generalize hm : (256 + i).toNat = m at h2 h3
    simp only [tag, List.cons_append, List.nil_append, decode, toNat_ofNat_lt h2]
    rw [if_neg (by omega), if_neg (by omega), if_neg (by omega), if_neg (by omega)]
    repeat rw [if_neg (by omega)]
    rw [if_pos h3]
    congr 3
    omega
  · split
    · simp [tag, decode, readBE_beBytes (k := 1) (n := (256 + i).toNat) (by omega), ofSigned]
      split <;> first | omega | (congr 1; omega)
    · split
      · simp [tag, decode, readBE_beBytes (k := 2) (n := (65536 + i).toNat) (by omega), ofSigned]
        split <;> first | omega | (congr 1; omega)
      · split
        · simp [tag, decode, readBE_beBytes (k := 4) (n := (4294967296 + i).toNat) (by omega), ofSigned]
          split <;> first | omega | (congr 1; omega)
        · simp [tag, decode, readBE_beBytes (k := 8) (n := (18446744073709551616 + i).toNat) (by omega), ofSigned]
          split <;> first | omega | (congr 1; omega)

theorem decode_str (f : Nat) (s : Bytes) (h : s.length < 2 ^ 32) (r : Bytes) :
    decode (f + 1) (encStrHdr s.length ++ s ++ r) = some (.str s, r) := by
  unfold encStrHdr
  have ht : takeN s.length (s ++ r) = some (s, r) := takeN_append rfl
  split
  · rename_i h1
    simp only [tag, List.cons_append, List.nil_append, decode, toNat_ofNat_lt (show 160 + s.length < 256 by omega)]
    rw [if_neg (by omega), if_neg (by omega), if_neg (by omega), if_pos (by omega)]
    simp [ht]
  · split
    · simp [tag, decode, readBE_beBytes (k := 1) (n := s.length) (by omega), ht]
    · split
      · simp [tag, decode, readBE_beBytes (k := 2) (n := s.length) (by omega), ht]
      · simp [tag, decode, readBE_beBytes (k := 4) (n := s.length) (by omega), ht]

theorem decode_arr (f n : Nat) (h : n < 2 ^ 32) (r : Bytes) :
    decode (f + 1) (encArrHdr n ++ r) = (decodeN (decode f) n r).map fun (vs, r) => (.arr vs, r) := by
  unfold encArrHdr
  split
  · simp only [tag, List.cons_append, List.nil_append, decode, toNat_ofNat_lt (show 144 + n < 256 by omega)]
    rw [if_neg (by omega), if_neg (by omega), if_pos (by omega)]
    simp
  · split
    · simp [tag, decode, readBE_beBytes (k := 2) (n := n) (by omega)]
    · simp [tag, decode, readBE_beBytes (k := 4) (n := n) (by omega)]

theorem decode_map (f n : Nat) (h : n < 2 ^ 32) (r : Bytes) :
    decode (f + 1) (encMapHdr n ++ r) = (decodeN (decode f) (2 * n) r).map fun (vs, r) => (.map vs, r) := by
  unfold encMapHdr
  split
  · simp only [tag, List.cons_append, List.nil_append, decode, toNat_ofNat_lt (show 128 + n < 256 by omega)]
    rw [if_neg (by omega), if_pos (by omega)]
    simp
  · split
    · simp [tag, decode, readBE_beBytes (k := 2) (n := n) (by omega)]
    · simp [tag, decode, readBE_beBytes (k := 4) (n := n) (by omega)]

mutual
theorem decode_encode : ∀ (v : Val) (f : Nat) (r : Bytes), WF v → depth v ≤ f →
    decode f (encode v ++ r) = some (v, r)
  | v, 0, r, _, hf => by cases v <;> simp [depth] at hf
  | .nil, f + 1, r, _, _ => by simp [encode, tag, decode]
  | .bool b, f + 1, r, _, _ => by cases b <;> simp [encode, tag, decode]
  | .uint n, f + 1, r, h, _ => by
      simp only [WF] at h
      rw [encode, decode_uint f n h r]
  | .nint i, f + 1, r, h, _ => by
      simp only [WF] at h
      rw [encode, decode_nint f i h r]
  | .f32 b, f + 1, r, h, _ => by
      simp only [WF] at h
      simp [encode, tag, decode, readBE_beBytes (k := 4) (n := b) (by omega)]
  | .f64 b, f + 1, r, h, _ => by
      simp only [WF] at h
      simp [encode, tag, decode, readBE_beBytes (k := 8) (n := b) (by omega)]
  | .str s, f + 1, r, h, _ => by
      simp only [WF] at h
      rw [encode, decode_str f s h r]
  | .arr vs, f + 1, r, h, hf => by
      simp only [WF] at h
      simp only [depth] at hf
      rw [encode, List.append_assoc, decode_arr f _ h.1, decodeN_encode vs f r h.2 (by omega)]
      simp
  | .map vs, f + 1, r, h, hf => by
      simp only [WF] at h
      simp only [depth] at hf
      rw [encode, List.append_assoc, decode_map f _ (by omega)]
      rw [show 2 * (vs.length / 2) = vs.length by omega]
      rw [decodeN_encode vs f r h.2.2 (by omega)]
      simp
theorem decodeN_encode : ∀ (vs : List Val) (f : Nat) (r : Bytes), WFList vs → depthList vs ≤ f →
    decodeN (decode f) vs.length (encodeList vs ++ r) = some (vs, r)
  | [], f, r, _, _ => by simp [decodeN, encodeList]
  | v :: vs, f, r, h, hf => by
      simp only [WFList] at h
      simp only [depthList] at hf
      simp only [List.length_cons, decodeN, encodeList, List.append_assoc]
      rw [decode_encode v f _ h.1 (by omega)]
      simp only
      rw [decodeN_encode vs f r h.2 (by omega)]
end

theorem encUInt_pos (n : Nat) : 1 ≤ (encUInt n).length := by
  unfold encUInt tag; repeat' split
  all_goals simp
theorem encNInt_pos (i : Int) : 1 ≤ (encNInt i).length := by
  unfold encNInt tag; repeat' split
  all_goals simp
theorem encStrHdr_pos (n : Nat) : 1 ≤ (encStrHdr n).length := by
  unfold encStrHdr tag; repeat' split
  all_goals simp
theorem encArrHdr_pos (n : Nat) : 1 ≤ (encArrHdr n).length := by
  unfold encArrHdr tag; repeat' split
  all_goals simp
theorem encMapHdr_pos (n : Nat) : 1 ≤ (encMapHdr n).length := by
  unfold encMapHdr tag; repeat' split
  all_goals simp

mutual
theorem depth_le : ∀ v : Val, depth v ≤ (encode v).length
  | .nil => by simp [depth, encode, tag]
  | .bool b => by simp [depth, encode, tag]
  | .uint n => by simp only [depth, encode]; exact encUInt_pos n
  | .nint n => by simp only [depth, encode]; exact encNInt_pos n
  | .f32 b => by simp [depth, encode, tag]
  | .f64 b => by simp [depth, encode, tag]
  | .str s => by
      have := encStrHdr_pos s.length
      simp only [depth, encode, List.length_append]; omega
  | .arr vs => by
      have := encArrHdr_pos vs.length
      have := depthList_le vs
      simp only [depth, encode, List.length_append]; omega
  | .map vs => by
      have := encMapHdr_pos (vs.length / 2)
      have := depthList_le vs
      simp only [depth, encode, List.length_append]; omega
theorem depthList_le : ∀ vs : List Val, depthList vs ≤ (encodeList vs).length
  | [] => by simp [depthList]
  | v :: vs => by
      have := depth_le v
      have := depthList_le vs
      simp only [depthList, encodeList, List.length_append]; omega
end

/-- Unpacking a packed object gives the object back, whatever follows it in the buffer. -/
theorem unpack_encode (v : Val) (r : Bytes) (h : WF v) : unpack (encode v ++ r) = some v := by
  unfold unpack
  rw [decode_encode v _ r h]
  · rfl
  · have := depth_le v
    simp; omega

end Verif.Msgpack
