import Verif.DocPack.Spec
import Verif.DocVal.TapeProps
import Verif.Msgpack.Lemmas
import Mathlib.Data.List.Nodup
/-!
Lemmas for the round trip of documents through MessagePack.
-/
namespace Verif.DocPack

open Verif.Num Verif.PhysKey Verif.DocVal Verif.Json Verif.Msgpack

/-! ### a float as a double -/

theorem decode_parts (eb mb sh s ex mant : Nat) (hs : s < 2) (he : ex < 2 ^ eb) (hm : mant < 2 ^ mb) :
    Num.decode eb mb sh (s * 2 ^ (eb + mb) + ex * 2 ^ mb + mant) =
      if ex = 2 ^ eb - 1 then (if mant ≠ 0 then .nan else if s = 1 then .ninf else .pinf)
      else .fin (if s = 1 then -((if ex = 0 then mant * 2 ^ sh else (2 ^ mb + mant) * 2 ^ (ex - 1) * 2 ^ sh : Nat) : Int)
        else (if ex = 0 then mant * 2 ^ sh else (2 ^ mb + mant) * 2 ^ (ex - 1) * 2 ^ sh : Nat)) := by
  have hp : 0 < 2 ^ mb := by positivity
  have hq : 0 < 2 ^ eb := by positivity
  have h1 : (s * 2 ^ (eb + mb) + ex * 2 ^ mb + mant) / 2 ^ mb = s * 2 ^ eb + ex := by
    rw [show s * 2 ^ (eb + mb) + ex * 2 ^ mb + mant = mant + (s * 2 ^ eb + ex) * 2 ^ mb by rw [pow_add]; ring]
    rw [Nat.add_mul_div_right _ _ hp, Nat.div_eq_of_lt hm, Nat.zero_add]
  have h2 : (s * 2 ^ (eb + mb) + ex * 2 ^ mb + mant) % 2 ^ mb = mant := by
    rw [show s * 2 ^ (eb + mb) + ex * 2 ^ mb + mant = mant + (s * 2 ^ eb + ex) * 2 ^ mb by rw [pow_add]; ring]
    rw [Nat.add_mul_mod_self_right, Nat.mod_eq_of_lt hm]
  have h3 : (s * 2 ^ (eb + mb) + ex * 2 ^ mb + mant) / 2 ^ mb % 2 ^ eb = ex := by
    rw [h1, Nat.add_comm, Nat.add_mul_mod_self_right, Nat.mod_eq_of_lt he]
  have h4 : (s * 2 ^ (eb + mb) + ex * 2 ^ mb + mant) / 2 ^ (eb + mb) % 2 = s := by
    rw [show eb + mb = mb + eb by omega, pow_add, ← Nat.div_div_eq_div_mul, ← pow_add, show mb + eb = eb + mb by omega, h1]
    rw [Nat.add_comm, Nat.add_mul_div_right _ _ hq, Nat.div_eq_of_lt he, Nat.zero_add, Nat.mod_eq_of_lt hs]
  unfold Num.decode
  simp only
  rw [h3, h2, h4]

theorem log2_mul (m : Nat) (h0 : m ≠ 0) : 2 ^ Nat.log2 m ≤ m ∧ m < 2 ^ (Nat.log2 m + 1) :=
  ⟨Nat.log2_self_le h0, Nat.lt_log2_self⟩

theorem toNat64 (n : Nat) (h : n < 2 ^ 64) : (UInt64.ofNat n).toNat = n := UInt64.toNat_ofNat_of_lt' h

/-- A float is the same number as a double. -/
theorem decode_wide (b : UInt32) : decode64 (wide b) = decode32 b := by
  have hb : b.toNat < 2 ^ 32 := b.toNat_lt
  unfold decode64 decode32 wide
  generalize b.toNat = n at hb
  obtain ⟨s, ex, mant, hs, he, hm, rfl⟩ : ∃ s ex mant, s < 2 ∧ ex < 2 ^ 8 ∧ mant < 2 ^ 23 ∧ n = s * 2 ^ (8 + 23) + ex * 2 ^ 23 + mant :=
    ⟨n / 2 ^ 31, n / 2 ^ 23 % 2 ^ 8, n % 2 ^ 23, by omega, by omega, by omega, by omega⟩
  rw [decode_parts 8 23 925 s ex mant hs he hm]
  have w1 : (s * 2 ^ (8 + 23) + ex * 2 ^ 23 + mant) / 2 ^ 31 = s := by omega
  have w2 : (s * 2 ^ (8 + 23) + ex * 2 ^ 23 + mant) / 2 ^ 23 % 2 ^ 8 = ex := by omega
  have w3 : (s * 2 ^ (8 + 23) + ex * 2 ^ 23 + mant) % 2 ^ 23 = mant := by omega
  unfold wideNat
  simp only [w1, w2, w3]
  clear w1 w2 w3 hb
  by_cases h255 : ex = 255
  · have e1 : (UInt64.ofNat (s * 2 ^ 63 + 2047 * 2 ^ 52 + mant * 2 ^ 29)).toNat = s * 2 ^ (11 + 52) + 2047 * 2 ^ 52 + mant * 2 ^ 29 :=
      toNat64 _ (by omega)
    have m1 : mant * 2 ^ 29 < 2 ^ 52 := by omega
    have m2 : 2047 < 2 ^ 11 := by omega
    rw [if_pos h255, e1, decode_parts 11 52 0 s 2047 (mant * 2 ^ 29) hs m2 m1]
    have c1 : (2047 : Nat) = 2 ^ 11 - 1 := by norm_num
    have c2 : ex = 2 ^ 8 - 1 := by rw [h255]; norm_num
    rw [if_pos c1, if_pos c2]
    by_cases h0 : mant = 0
    · subst h0; rfl
    · have c3 : mant * 2 ^ 29 ≠ 0 := by omega
      rw [if_pos c3, if_pos h0]
  · have c2 : ¬ ex = 2 ^ 8 - 1 := by intro hc; exact h255 (by rw [hc]; norm_num)
    rw [if_neg h255, if_neg c2]
    by_cases he0 : ex = 0
    · rw [if_pos he0, if_pos he0]
      by_cases h0 : mant = 0
      · have e1 : (UInt64.ofNat (s * 2 ^ 63)).toNat = s * 2 ^ (11 + 52) + 0 * 2 ^ 52 + 0 := by
          rw [toNat64 _ (by omega)]; omega
        have c1 : ¬ (0 : Nat) = 2 ^ 11 - 1 := by norm_num
        rw [if_pos h0, e1, decode_parts 11 52 0 s 0 0 hs (by omega) (by omega), if_neg c1, if_pos rfl, h0, Nat.zero_mul, Nat.zero_mul]
      · rw [if_neg h0]
        obtain ⟨l1, l2⟩ := log2_mul mant h0
        generalize Nat.log2 mant = l at l1 l2
        have hl : l < 23 := by
          by_contra hc
          have : 2 ^ 23 ≤ 2 ^ l := Nat.pow_le_pow_right (by omega) (by omega)
          omega
        have e2 : 2 ^ 52 = 2 ^ l * 2 ^ (52 - l) := by rw [← pow_add]; congr 1; omega
        have hf : (mant - 2 ^ l) * 2 ^ (52 - l) < 2 ^ 52 := by
          rw [e2]
          refine Nat.mul_lt_mul_of_pos_right ?_ (by positivity)
          rw [pow_succ] at l2; omega
        have e3 : (2 ^ 52 + (mant - 2 ^ l) * 2 ^ (52 - l)) * 2 ^ (l + 874 - 1) * 2 ^ 0 = mant * 2 ^ 925 := by
          have e4 : 2 ^ 52 + (mant - 2 ^ l) * 2 ^ (52 - l) = mant * 2 ^ (52 - l) := by
            rw [e2, ← Nat.add_mul]; congr 1; omega
          have e5 : 52 - l + (l + 874 - 1) = 925 := by omega
          rw [e4, pow_zero, Nat.mul_one, Nat.mul_assoc, ← pow_add, e5]
        generalize (mant - 2 ^ l) * 2 ^ (52 - l) = f at hf e3
        have e1 : (UInt64.ofNat (s * 2 ^ 63 + (l + 874) * 2 ^ 52 + f)).toNat = s * 2 ^ (11 + 52) + (l + 874) * 2 ^ 52 + f :=
          toNat64 _ (by omega)
        have c1 : ¬ l + 874 = 2 ^ 11 - 1 := by omega
        have c3 : ¬ l + 874 = 0 := by omega
        rw [e1, decode_parts 11 52 0 s (l + 874) f hs (by omega) hf, if_neg c1, if_neg c3, e3]
    · have e1 : (UInt64.ofNat (s * 2 ^ 63 + (ex + 896) * 2 ^ 52 + mant * 2 ^ 29)).toNat = s * 2 ^ (11 + 52) + (ex + 896) * 2 ^ 52 + mant * 2 ^ 29 :=
        toNat64 _ (by omega)
      have m1 : mant * 2 ^ 29 < 2 ^ 52 := by omega
      have c1 : ¬ ex + 896 = 2 ^ 11 - 1 := by omega
      have c3 : ¬ ex + 896 = 0 := by omega
      have e3 : (2 ^ 52 + mant * 2 ^ 29) * 2 ^ (ex + 896 - 1) * 2 ^ 0 = (2 ^ 23 + mant) * 2 ^ (ex - 1) * 2 ^ 925 := by
        have e4 : 2 ^ 52 + mant * 2 ^ 29 = (2 ^ 23 + mant) * 2 ^ 29 := by omega
        have e5 : 29 + (ex + 896 - 1) = ex - 1 + 925 := by omega
        rw [e4, pow_zero, Nat.mul_one, Nat.mul_assoc, Nat.mul_assoc, ← pow_add, ← pow_add, e5]
      rw [if_neg he0, if_neg he0, e1, decode_parts 11 52 0 s (ex + 896) _ hs (by omega) m1, if_neg c1, if_neg c3, e3]

/-! ### values -/

/-- What is packed for a value. -/
def valV (shrink : Bool) : V → Val
  | .bool b => .bool b
  | .int _ v => packInt v
  | .float b => packDouble shrink (wide b)
  | .double b => packDouble shrink b
  | .str s => .str s
  | _ => .nil

/-- What comes back for a value. -/
def backV (shrink : Bool) (v : V) : V := primitive (valV shrink v)

theorem put_ok (v : V) (hv : v.valid) (hf : DocVal.Fits ⟨[], []⟩ 0 v) : Query.put v = .ok v := by
  have := C48_roundtrip_partial ⟨[], []⟩ 0 v [] hv hf
  exact this

theorem mod_one_mul (z : Int) (h : z % one = 0) : z = z / one * one := by
  have := Int.emod_add_mul_ediv z one
  rw [h, Int.zero_add, Int.mul_comm] at this
  exact this.symm

theorem div_one_nonneg (z : Int) (h : 0 ≤ z) : 0 ≤ z / one := Int.ediv_nonneg h (le_of_lt one_pos)

theorem div_one_neg (z : Int) (h : z < 0) : z / one < 0 := Int.ediv_neg_of_neg_of_pos h one_pos

/-- The three forms of a packed double. -/
theorem packDouble_cases (shrink : Bool) (b : UInt64) :
    packDouble shrink b = .f64 b.toNat ∨
    (shrink = true ∧ ∃ n : Int, decode64 b = .fin (n * one) ∧ ((0 ≤ n ∧ n < 2 ^ 64 ∧ packDouble shrink b = .uint n.toNat) ∨
      (n < 0 ∧ -2 ^ 63 ≤ n ∧ packDouble shrink b = .nint n))) := by
  unfold packDouble
  cases shrink with
  | false => left; rfl
  | true =>
    simp only [if_true]
    cases hd : decode64 b with
    | fin z =>
      simp only
      by_cases h1 : z % one = 0 ∧ 0 ≤ z ∧ z / one < 2 ^ 64
      · right
        rw [if_pos h1]
        refine ⟨trivial, z / one, by rw [← mod_one_mul z h1.1], .inl ⟨div_one_nonneg z h1.2.1, h1.2.2, rfl⟩⟩
      · rw [if_neg h1]
        by_cases h2 : z % one = 0 ∧ z < 0 ∧ -2 ^ 63 ≤ z / one
        · right
          rw [if_pos h2]
          exact ⟨trivial, z / one, by rw [← mod_one_mul z h2.1], .inr ⟨div_one_neg z h2.2.1, h2.2.2, rfl⟩⟩
        · left
          rw [if_neg h2]
    | nan => left; rfl
    | ninf => left; rfl
    | pinf => left; rfl

theorem packDouble_wf (shrink : Bool) (b : UInt64) : WF (packDouble shrink b) := by
  rcases packDouble_cases shrink b with h | ⟨_, n, _, ⟨h0, h1, h⟩ | ⟨h0, h1, h⟩⟩
  · rw [h]; exact b.toNat_lt
  · rw [h]; show n.toNat < 2 ^ 64; omega
  · rw [h]; exact ⟨h1, h0⟩

theorem packInt_wf (v : Int) (h : -2 ^ 63 ≤ v ∧ v < 2 ^ 64) : WF (packInt v) := by
  unfold packInt
  split
  · show v.toNat < 2 ^ 64; omega
  · exact ⟨h.1, by omega⟩

theorem fits_wide (t : ITy) (v : Int) (h : t.fits v) : -2 ^ 63 ≤ v ∧ v < 2 ^ 64 := by
  cases t <;> simp [ITy.fits, ITy.signed, ITy.bits] at h <;> omega

theorem fits_unsigned (t : ITy) (v : Int) (h : t.fits v) (hs : ¬ t.signed = true) : 0 ≤ v := by
  cases t <;> simp [ITy.fits, ITy.signed, ITy.bits] at h hs <;> omega

theorem valV_wf (shrink : Bool) (v : V) (hv : v.valid) (hs : ∀ s, v = .str s → s.length < 2 ^ 31) : WF (valV shrink v) := by
  cases v with
  | int t n => exact packInt_wf n (fits_wide t n hv)
  | float b => exact packDouble_wf shrink _
  | double b => exact packDouble_wf shrink _
  | str s => have := hs s rfl; show s.length < 2 ^ 32; omega
  | _ => trivial

theorem packV_eq (shrink : Bool) (v : V) (hv : v.valid) (hc : Carried shrink v) : packV shrink v = encode (valV shrink v) := by
  cases v with
  | int t n =>
    simp only [packV, valV]
    split
    · rfl
    · rename_i h
      have := fits_unsigned t n hv h
      rw [packInt, if_pos this]
  | big b => exact hc.elim
  | other b => exact hc.elim
  | _ => rfl

theorem put_u64 (n : Int) (h : 0 ≤ n ∧ n < 2 ^ 56) : Query.put (.int .u64 n) = .ok (.int .u64 n) := by
  refine put_ok _ ?_ ?_
  · simp [V.valid, ITy.fits, ITy.signed, ITy.bits]; omega
  · simp [DocVal.Fits]; omega

theorem put_i64 (n : Int) (h : -2 ^ 63 ≤ n ∧ n < 0) : Query.put (.int .i64 n) = .ok (.int .i64 n) := by
  refine put_ok _ ?_ ?_
  · simp [V.valid, ITy.fits, ITy.signed, ITy.bits]; omega
  · simp [DocVal.Fits]

theorem put_str (s : Bytes) (h : s.length < 2 ^ 31) : Query.put (.str s) = .ok (.str s) := by
  refine put_ok _ trivial ?_
  simp [DocVal.Fits]; omega

theorem put_double (b : UInt64) : Query.put (.double b) = .ok (.double b) := put_ok _ trivial trivial

/-- What is read back of a packed double. -/
theorem put_packDouble (shrink : Bool) (b : UInt64) (h : shrink = true → ∀ n : Int, decode64 b = .fin (n * one) → n < 2 ^ 56 ∨ 2 ^ 64 ≤ n) :
    Query.put (primitive (packDouble shrink b)) = .ok (primitive (packDouble shrink b)) := by
  rcases packDouble_cases shrink b with hp | ⟨hs, n, hn, ⟨h0, h1, hp⟩ | ⟨h0, h1, hp⟩⟩
  · rw [hp]; exact put_double _
  · rw [hp]
    have := h hs n hn
    show Query.put (.int .u64 (n.toNat : Int)) = _
    rw [Int.toNat_of_nonneg h0]
    have e : primitive (.uint n.toNat) = .int .u64 n := by rw [primitive, Int.toNat_of_nonneg h0]
    rw [e]
    exact put_u64 n ⟨h0, by omega⟩
  · rw [hp]; exact put_i64 n ⟨h1, h0⟩

theorem put_back (shrink : Bool) (v : V) (hv : v.valid) (hs : ∀ s, v = .str s → s.length < 2 ^ 31) (hc : Carried shrink v) :
    Query.put (backV shrink v) = .ok (backV shrink v) := by
  unfold backV
  cases v with
  | int t n =>
    have hf := fits_wide t n hv
    simp only [valV, packInt]
    split
    · rename_i h
      rw [primitive, Int.toNat_of_nonneg h]
      exact put_u64 n ⟨h, hc⟩
    · exact put_i64 n ⟨hf.1, by omega⟩
  | float b =>
    refine put_packDouble shrink _ ?_
    rw [decode_wide]
    exact hc
  | double b => exact put_packDouble shrink _ hc
  | str s => exact put_str s (hs s rfl)
  | na => exact put_ok _ trivial trivial
  | bool b => exact put_ok _ trivial trivial
  | big b => exact hc.elim
  | other b => exact hc.elim

theorem same_double (shrink : Bool) (b : UInt64) : num (primitive (packDouble shrink b)) = some (decode64 b) := by
  rcases packDouble_cases shrink b with hp | ⟨hs, n, hn, ⟨h0, h1, hp⟩ | ⟨h0, h1, hp⟩⟩
  · rw [hp]
    simp only [primitive, num]
    rw [UInt64.ofNat_toNat]
  · rw [hp, hn]
    simp only [primitive, num]
    rw [Int.toNat_of_nonneg h0]
  · rw [hp, hn]; rfl

/-- What comes back is the same number. -/
theorem same_back (shrink : Bool) (v : V) (hc : Carried shrink v) : SameV v (backV shrink v) := by
  unfold backV
  cases v with
  | int t n =>
    right
    refine ⟨_, rfl, ?_⟩
    simp only [valV, packInt]
    split
    · rename_i h
      simp only [primitive, num, Int.toNat_of_nonneg h]
    · rfl
  | float b => exact .inr ⟨_, rfl, by rw [← decode_wide]; exact same_double shrink _⟩
  | double b => exact .inr ⟨_, rfl, same_double shrink b⟩
  | big b => exact hc.elim
  | other b => exact hc.elim
  | str s => exact .inl rfl
  | na => exact .inl rfl
  | bool b => exact .inl rfl

/-- What is kept is the same value. -/
theorem kept_back (shrink : Bool) (v : V) (hv : v.valid) (hk : Kept shrink v) : backV shrink v = v := by
  unfold backV
  cases v with
  | int t n =>
    have hf := fits_wide t n hv
    rcases hk with ⟨rfl, h⟩ | ⟨rfl, h⟩
    · have h0 := fits_unsigned .u64 n hv (by decide)
      simp only [valV, packInt, if_pos h0, primitive, Int.toNat_of_nonneg h0]
    · simp only [valV, packInt, if_neg (show ¬ 0 ≤ n by omega), primitive]
  | double b =>
    simp only [valV]
    rcases packDouble_cases shrink b with hp | ⟨hs, n, hn, ⟨h0, h1, hp⟩ | ⟨h0, h1, hp⟩⟩
    · rw [hp, primitive, UInt64.ofNat_toNat]
    · have := hk hs n hn; omega
    · have := hk hs n hn; omega
  | float b => exact hk.elim
  | big b => exact hk.elim
  | other b => exact hk.elim
  | str s => rfl
  | na => rfl
  | bool b => rfl

theorem kept_carried (shrink : Bool) (v : V) (h : Kept shrink v) : Carried shrink v := by
  cases v with
  | int t n => rcases h with ⟨_, h⟩ | ⟨_, h⟩ <;> simp only [Carried] <;> omega
  | double b => intro hs n hn; have := h hs n hn; omega
  | float b => exact h.elim
  | big b => exact h
  | other b => exact h
  | _ => trivial

/-! ### documents -/

mutual
/-- What is packed for a document. -/
def valN (shrink : Bool) : Node → Val
  | .leaf v => valV shrink v
  | .obj fs => .map (valF shrink fs)
  | .arr xs => .arr (valI shrink xs)
  | .del => .nil
def valF (shrink : Bool) : List (Bytes × Node) → List Val
  | [] => []
  | (k, n) :: fs => .str k :: valN shrink n :: valF shrink fs
def valI (shrink : Bool) : List Node → List Val
  | [] => []
  | n :: xs => valN shrink n :: valI shrink xs
end

mutual
/-- What comes back for a document. -/
def backN (shrink : Bool) : Node → Node
  | .leaf v => .leaf (backV shrink v)
  | .obj fs => .obj (backF shrink fs)
  | .arr xs => .arr (backI shrink xs)
  | .del => .del
def backF (shrink : Bool) : List (Bytes × Node) → List (Bytes × Node)
  | [] => []
  | (k, n) :: fs => (k, backN shrink n) :: backF shrink fs
def backI (shrink : Bool) : List Node → List Node
  | [] => []
  | n :: xs => backN shrink n :: backI shrink xs
end

theorem valF_length (shrink : Bool) (fs : List (Bytes × Node)) : (valF shrink fs).length = 2 * fs.length := by
  induction fs with
  | nil => rfl
  | cons p fs ih => obtain ⟨k, n⟩ := p; simp only [valF, List.length_cons, ih]; omega

theorem valI_length (shrink : Bool) (xs : List Node) : (valI shrink xs).length = xs.length := by
  induction xs with
  | nil => rfl
  | cons n xs ih => simp only [valI, List.length_cons, ih]

/-- What is to be shown of a document and what it is made of. -/
def Works (shrink : Bool) (n : Node) : Prop :=
  pack shrink n = encode (valN shrink n) ∧ WF (valN shrink n) ∧ unpackNode (valN shrink n) = .ok (backN shrink n)

theorem works_items (shrink : Bool) (xs : List Node) (h : ∀ x ∈ xs, Works shrink x) :
    packItems shrink xs = encodeList (valI shrink xs) ∧ WFList (valI shrink xs) ∧ unpackItems (valI shrink xs) = .ok (backI shrink xs) := by
  induction xs with
  | nil => exact ⟨rfl, trivial, rfl⟩
  | cons n xs ih =>
    obtain ⟨h1, h2, h3⟩ := h n (by simp)
    obtain ⟨i1, i2, i3⟩ := ih fun x hx => h x (by simp [hx])
    refine ⟨?_, ⟨h2, i2⟩, ?_⟩
    · simp only [packItems, valI, encodeList, h1, i1]
    · simp only [valI, unpackItems, backI]
      rw [h3, i3]
      rfl

theorem lookN_append (fs gs : List (Bytes × Node)) (k : Bytes) : lookN (fs ++ gs) k = (lookN fs k).orElse fun _ => lookN gs k := by
  induction fs with
  | nil => rfl
  | cons p fs ih =>
    obtain ⟨n, c⟩ := p
    simp only [List.cons_append, lookN]
    split
    · rfl
    · exact ih

theorem lookN_none (fs : List (Bytes × Node)) (k : Bytes) (h : k ∉ fs.map Prod.fst) : lookN fs k = none := by
  induction fs with
  | nil => rfl
  | cons p fs ih =>
    obtain ⟨n, c⟩ := p
    simp only [List.map_cons, List.mem_cons, not_or] at h
    simp only [lookN]
    rw [if_neg (Ne.symm h.1)]
    exact ih h.2

theorem works_fields (shrink : Bool) (fs : List (Bytes × Node)) (h : ∀ p ∈ fs, Works shrink p.2)
    (hk : ∀ p ∈ fs, p.1.length < 2 ^ 31) :
    packFields shrink fs = encodeList (valF shrink fs) ∧ WFList (valF shrink fs) ∧
    ∀ acc : List (Bytes × Node), ((acc.map Prod.fst) ++ fs.map Prod.fst).Nodup →
      unpackFields acc none (valF shrink fs) = .ok (acc ++ backF shrink fs) := by
  induction fs with
  | nil =>
    refine ⟨rfl, trivial, fun acc _ => ?_⟩
    simp only [valF, unpackFields, backF, List.append_nil]
  | cons p fs ih =>
    obtain ⟨k, n⟩ := p
    obtain ⟨h1, h2, h3⟩ := h (k, n) (by simp)
    obtain ⟨i1, i2, i3⟩ := ih (fun x hx => h x (by simp [hx])) (fun x hx => hk x (by simp [hx]))
    have hkk : k.length < 2 ^ 31 := hk (k, n) (by simp)
    simp only at h1 h2 h3
    refine ⟨?_, ⟨?_, h2, i2⟩, ?_⟩
    · simp only [packFields, valF, encodeList, h1, i1, List.append_assoc]
    · show k.length < 2 ^ 32; omega
    · intro acc hn
      simp only [valF, unpackFields, backF]
      have hkt : keyText (.str k) = .ok k := by
        simp only [keyText, primitive]
        rw [put_str k hkk]
        rfl
      rw [hkt]
      simp only [Res.bind]
      rw [h3]
      simp only
      have hnot : k ∉ acc.map Prod.fst := by
        intro hm
        exact (List.nodup_append.mp hn).2.2 k hm k (by simp) rfl
      have hem : emplaceN k (backN shrink n) acc = acc ++ [(k, backN shrink n)] := by
        unfold emplaceN
        rw [lookN_none acc k hnot]
      rw [hem, i3 (acc ++ [(k, backN shrink n)])]
      · simp
      · simp only [List.map_append, List.map_cons, List.map_nil, List.append_assoc, List.cons_append, List.nil_append] at hn ⊢
        exact hn

theorem works (shrink : Bool) (n : Node) (hv : Valid n) : Every (Carried shrink) n → Works shrink n := by
  induction hv with
  | leaf v hv hs =>
    intro he
    cases he with
    | leaf _ hc =>
      refine ⟨?_, valV_wf shrink v hv hs, ?_⟩
      · simp only [pack, valN]; exact packV_eq shrink v hv hc
      · have hp := put_back shrink v hv hs hc
        unfold backV at hp
        simp only [valN, backN]
        have : unpackNode (valV shrink v) = (Query.put (primitive (valV shrink v))).bind fun x => .ok (.leaf x) := by
          have hd : ∀ b, ∃ x, packDouble shrink b = .uint x ∨ (∃ i, packDouble shrink b = .nint i) ∨ packDouble shrink b = .f64 x := by
            intro b
            rcases packDouble_cases shrink b with h | ⟨_, m, _, ⟨_, _, h⟩ | ⟨_, _, h⟩⟩
            · exact ⟨_, .inr (.inr h)⟩
            · exact ⟨_, .inl h⟩
            · exact ⟨0, .inr (.inl ⟨_, h⟩)⟩
          cases v with
          | int t i => simp only [valV, packInt]; split <;> simp only [unpackNode]
          | float b => simp only [valV]; obtain ⟨x, h | ⟨i, h⟩ | h⟩ := hd (wide b) <;> rw [h] <;> simp only [unpackNode]
          | double b => simp only [valV]; obtain ⟨x, h | ⟨i, h⟩ | h⟩ := hd b <;> rw [h] <;> simp only [unpackNode]
          | _ => simp only [valV, unpackNode]
        rw [this, hp]
        rfl
  | arr xs hl _ ih =>
    intro he
    cases he with
    | arr _ he =>
      obtain ⟨h1, h2, h3⟩ := works_items shrink xs fun x hx => ih x hx (he x hx)
      refine ⟨?_, ?_, ?_⟩
      · simp only [pack, valN, encode, h1, valI_length]
      · simp only [valN, WF, valI_length]; exact ⟨by omega, h2⟩
      · simp only [valN, unpackNode, backN, h3]; rfl
  | obj fs hn hl hk _ ih =>
    intro he
    cases he with
    | obj _ he =>
      obtain ⟨h1, h2, h3⟩ := works_fields shrink fs (fun p hp => ih p hp (he p hp)) hk
      have hlen := valF_length shrink fs
      refine ⟨?_, ?_, ?_⟩
      · simp only [pack, valN, encode, h1, hlen]
        rw [show 2 * fs.length / 2 = fs.length by omega]
      · simp only [valN, WF, hlen]; exact ⟨by omega, by omega, h2⟩
      · have := h3 [] (by simpa using hn)
        simp only [valN, unpackNode, backN, this]; rfl

/-! ### what is seen of it -/

theorem lookN_backF (shrink : Bool) (fs : List (Bytes × Node)) (k : Bytes) : lookN (backF shrink fs) k = (lookN fs k).map (backN shrink) := by
  induction fs with
  | nil => rfl
  | cons p fs ih =>
    obtain ⟨n, c⟩ := p
    simp only [backF, lookN]
    split
    · rfl
    · exact ih

theorem get_backI (shrink : Bool) (xs : List Node) (i : Nat) : (backI shrink xs)[i]? = xs[i]?.map (backN shrink) := by
  induction xs generalizing i with
  | nil => rfl
  | cons n xs ih =>
    cases i with
    | zero => rfl
    | succ i => simp only [backI, List.getElem?_cons_succ]; exact ih i

theorem lookN_mem (fs : List (Bytes × Node)) (k : Bytes) (n : Node) (h : lookN fs k = some n) : (k, n) ∈ fs := by
  induction fs with
  | nil => cases h
  | cons p fs ih =>
    obtain ⟨m, c⟩ := p
    simp only [lookN] at h
    split at h
    · rename_i e; injection h with h; subst h; subst e; simp
    · exact List.mem_cons_of_mem _ (ih h)

theorem alike_back (shrink : Bool) (l : Loc) (n : Node) (he : Every (Carried shrink) n) :
    Alike (seen n l) (seen (backN shrink n) l) := by
  induction l generalizing n with
  | nil =>
    cases he with
    | leaf v h => exact .value _ _ (same_back shrink v h)
    | arr xs h => exact .array
    | obj fs h => exact .object
  | cons k l ih =>
    unfold seen
    cases k with
    | name k =>
      cases he with
      | leaf v h => exact .nothing
      | arr xs h => exact .nothing
      | obj fs h =>
        simp only [reach, backN, lookN_backF]
        cases hf : lookN fs k with
        | none => exact .nothing
        | some c => exact ih c (h (k, c) (lookN_mem fs k c hf))
    | index i =>
      cases he with
      | leaf v h => exact .nothing
      | obj fs h => exact .nothing
      | arr xs h =>
        simp only [reach, backN, get_backI]
        cases hf : xs[i]? with
        | none => exact .nothing
        | some c => exact ih c (h c (List.mem_of_getElem? hf))

theorem kept_items (shrink : Bool) (xs : List Node) (h : ∀ x ∈ xs, backN shrink x = x) : backI shrink xs = xs := by
  induction xs with
  | nil => rfl
  | cons n xs ih => simp only [backI]; rw [h n (by simp), ih fun x hx => h x (by simp [hx])]

theorem kept_fields (shrink : Bool) (fs : List (Bytes × Node)) (h : ∀ p ∈ fs, backN shrink p.2 = p.2) : backF shrink fs = fs := by
  induction fs with
  | nil => rfl
  | cons p fs ih => obtain ⟨k, n⟩ := p; simp only [backF]; rw [h (k, n) (by simp), ih fun x hx => h x (by simp [hx])]

theorem kept_node (shrink : Bool) (n : Node) (hv : Valid n) : Every (Kept shrink) n → backN shrink n = n := by
  induction hv with
  | leaf v hv _ => intro he; cases he with | leaf _ h => simp only [backN, kept_back shrink v hv h]
  | arr xs _ _ ih => intro he; cases he with | arr _ h => simp only [backN, kept_items shrink xs fun x hx => ih x hx (h x hx)]
  | obj fs _ _ _ _ ih => intro he; cases he with | obj _ h => simp only [backN, kept_fields shrink fs fun p hp => ih p hp (h p hp)]

theorem Every.mono {P Q : V → Prop} (hPQ : ∀ v, P v → Q v) {n : Node} (h : Every P n) : Every Q n := by
  induction h with
  | leaf v h => exact .leaf v (hPQ v h)
  | arr xs _ ih => exact .arr xs ih
  | obj fs _ ih => exact .obj fs ih

/-- A packed document, whatever follows it. -/
theorem ofBytes_pack (shrink : Bool) (fs : List (Bytes × Node)) (r : Bytes) (hv : Valid (.obj fs)) (he : Every (Carried shrink) (.obj fs)) :
    ofBytes (pack shrink (.obj fs) ++ r) = .ok (backN shrink (.obj fs)) := by
  obtain ⟨h1, h2, h3⟩ := works shrink (.obj fs) hv he
  unfold ofBytes
  rw [h1, unpack_encode _ r h2]
  simp only [valN, unpackNode] at h3 ⊢
  exact h3

/-- Packed documents, whatever follows them. -/
theorem allOfBytes_pack (shrink : Bool) (ds : List (List (Bytes × Node))) (r : Bytes) (hl : ds.length < 2 ^ 31)
    (hv : ∀ fs ∈ ds, Valid (.obj fs)) (he : ∀ fs ∈ ds, Every (Carried shrink) (.obj fs)) :
    allOfBytes (packAll shrink (ds.map .obj) ++ r) = .ok (ds.map fun fs => backN shrink (.obj fs)) := by
  have hw : ∀ n ∈ ds.map Node.obj, Works shrink n := by
    intro n hn
    obtain ⟨fs, hfs, rfl⟩ := List.mem_map.mp hn
    exact works shrink _ (hv fs hfs) (he fs hfs)
  obtain ⟨h1, h2, h4⟩ := works_items shrink (ds.map .obj) hw
  have e : packAll shrink (ds.map .obj) = encode (.arr (valI shrink (ds.map .obj))) := by
    simp only [packAll, encode, valI_length, h1]
  have hwf : WF (.arr (valI shrink (ds.map .obj))) := by
    simp only [WF, valI_length, List.length_map]; exact ⟨by omega, h2⟩
  unfold allOfBytes
  rw [e, unpack_encode _ r hwf]
  simp only [toDocuments]
  clear e hwf h1 h2 h4 hl
  induction ds with
  | nil => rfl
  | cons fs ds ih =>
    obtain ⟨_, _, h3⟩ := hw (.obj fs) (by simp)
    simp only [List.map_cons, valI, valN, toDocumentsLoop, decodeDocument]
    simp only [valN, unpackNode] at h3
    rw [h3]
    simp only [Res.bind]
    rw [ih (fun f hf => hv f (by simp [hf])) (fun f hf => he f (by simp [hf])) (fun n hn => hw n (by simp at hn ⊢; right; exact hn))]

end Verif.DocPack
