import Verif.DocVal.Model
/-!
C48: a value written to the tape of a document is read back.
-/
namespace Verif.DocVal

open Verif.Num Verif.PhysKey Verif.LogVal

/-- The values the C++ types hold. -/
def V.valid : V → Prop
  | .int t v => t.fits v
  | .big v => -2 ^ 127 ≤ v ∧ v < 2 ^ 127
  | .other _ => False
  | _ => True

/-- Writing more values. -/
def buildAll (d : Tape) : List (Nat × V) → Tape
  | [] => d
  | (j, v) :: rest => buildAll (build j d v) rest

/-- The full claim: whatever is written later, and whatever the uninitialised bytes are, the value is read back from
where it was written. -/
def C48_claim : Prop :=
  ∀ (d : Tape) (j : Nat) (v : V) (later : List (Nat × V)), v.valid →
    read (buildAll (build j d v) later) d.words.length = .ok v

/-- What the tape holds: 64-bit unsigned numbers below 2^56, strings below 4 GiB in a buffer below 2^56 bytes, and the
uninitialised bytes leaving the top one zero. -/
def Fits (d : Tape) (j : Nat) : V → Prop
  | .int t v => if t = .u64 then v < 2 ^ 56 else j * 2 ^ t.bits < 2 ^ 56 - 2 ^ 32
  | .float _ => j * 2 ^ 32 < 2 ^ 56 - 2 ^ 32
  | .str s => s.length < 2 ^ 32 ∧ d.chars.length < 2 ^ 56
  | _ => True

theorem word_add (v c : Nat) (hv : v < 2 ^ 56) (hc : c < 256) : word v c = v + c * 2 ^ 56 := by
  unfold word
  have h := Nat.two_pow_add_eq_or_of_lt hv c
  rw [Nat.or_comm, Nat.mul_comm c, ← h, Nat.mod_eq_of_lt (by omega)]
  omega

theorem word_code (v c : Nat) (hv : v < 2 ^ 56) (hc : c < 256) : word v c / 2 ^ 56 = c := by
  rw [word_add v c hv hc]; omega

theorem word_val (v c : Nat) (hv : v < 2 ^ 56) (hc : c < 256) : word v c % 2 ^ 56 = v := by
  rw [word_add v c hv hc]; omega

theorem build_append (j : Nat) (d : Tape) (v : V) : ∃ w s, build j d v = ⟨d.words ++ w, d.chars ++ s⟩ := by
  cases v with
  | int t v =>
    simp only [build]
    split
    · exact ⟨_, [], by rw [List.append_nil d.chars]⟩
    · split
      · exact ⟨_, [], by rw [List.append_nil d.chars]⟩
      · split
        · exact ⟨_, [], by rw [List.append_nil d.chars]⟩
        · exact ⟨_, [], by rw [List.append_nil d.chars]⟩
  | str s => exact ⟨_, _, rfl⟩
  | other c => exact ⟨[], [], by simp [build]⟩
  | na => exact ⟨_, [], by rw [build, List.append_nil d.chars]⟩
  | bool b => exact ⟨_, [], by rw [build, List.append_nil d.chars]⟩
  | big b => exact ⟨_, [], by rw [build, List.append_nil d.chars]⟩
  | float b => exact ⟨_, [], by rw [build, List.append_nil d.chars]⟩
  | double b => exact ⟨_, [], by rw [build, List.append_nil d.chars]⟩

theorem buildAll_append (d : Tape) (l : List (Nat × V)) : ∃ w s, buildAll d l = ⟨d.words ++ w, d.chars ++ s⟩ := by
  induction l generalizing d with
  | nil => exact ⟨[], [], by simp [buildAll]⟩
  | cons x l ih =>
    obtain ⟨w, s, h⟩ := build_append x.1 d x.2
    obtain ⟨w', s', h'⟩ := ih (build x.1 d x.2)
    refine ⟨w ++ w', s ++ s', ?_⟩
    rw [buildAll, h', h]
    simp

theorem nth0 (l : List Nat) (a : Nat) (r : List Nat) : (l ++ a :: r)[l.length]? = some a := by simp

theorem nth1 (l : List Nat) (a b : Nat) (r : List Nat) : (l ++ a :: b :: r)[l.length + 1]? = some b := by
  rw [List.getElem?_append_right (by omega), Nat.add_sub_cancel_left]; rfl

theorem nth2 (l : List Nat) (a b c : Nat) (r : List Nat) : (l ++ a :: b :: c :: r)[l.length + 2]? = some c := by
  rw [List.getElem?_append_right (by omega), Nat.add_sub_cancel_left]; rfl

theorem low_of (t : ITy) (v : Int) (n : Nat) (h : t.fits v) (hn : (n : Int) % 2 ^ t.bits = v % 2 ^ t.bits) : low t n = v := by
  unfold low
  unfold ITy.fits at h
  simp only
  split
  · rename_i hc
    simp only [Bool.and_eq_true, decide_eq_true_eq] at hc
    rw [if_pos hc.1] at h
    cases t <;> simp [ITy.signed, ITy.bits] at h hc hn ⊢ <;> omega
  · rename_i hc
    simp only [Bool.and_eq_true, decide_eq_true_eq] at hc
    cases t <;> simp [ITy.signed, ITy.bits] at h hc hn ⊢ <;> omega

theorem rd32_le32 (n : Nat) (h : n < 2 ^ 32) (s : Bytes) : rd32 (le32 n ++ s) = .ok n := by
  simp only [le32, List.cons_append, List.nil_append, rd32, UInt8.toNat_ofNat']
  congr 1
  omega

theorem le32_length (n : Nat) : (le32 n).length = 4 := rfl

theorem rdStr_append (p s q : Bytes) (h : s.length < 2 ^ 32) : rdStr (p ++ strBytes s ++ q) p.length = .ok s := by
  unfold rdStr strBytes
  rw [Nat.mod_eq_of_lt h, List.take_length]
  have h1 : (p ++ (le32 s.length ++ s ++ [0]) ++ q).drop p.length = le32 s.length ++ (s ++ [0] ++ q) := by
    simp [List.append_assoc]
  have h2 : (p ++ (le32 s.length ++ s ++ [0]) ++ q).drop (p.length + 4) = s ++ ([0] ++ q) := by
    rw [← List.drop_drop, h1, List.drop_append_of_le_length (by simp [le32_length])]
    simp [le32]
  rw [h1, h2, rd32_le32 _ h]
  simp only [Res.bind]
  rw [if_neg (by simp)]
  simp

/-- A value the tape can hold is read back from where it was written, whatever follows on the tape. -/
theorem read_extended (d : Tape) (j : Nat) (v : V) (w : List Nat) (s : Bytes) (hv : v.valid) (hf : Fits d j v) :
    read ⟨(build j d v).words ++ w, (build j d v).chars ++ s⟩ d.words.length = .ok v := by
  cases v with
  | other c => exact absurd hv (by simp [V.valid])
  | na =>
    simp only [build, read, List.append_assoc, List.cons_append, List.nil_append, nth0, nth1, nth2]
    rfl
  | bool b =>
    simp only [build, read, List.append_assoc, List.cons_append, List.nil_append, nth0, nth1, nth2]
    cases b <;> rfl
  | double b =>
    simp only [build, read, List.append_assoc, List.cons_append, List.nil_append, nth0, nth1, nth2]
    rw [word_code 0 14 (by omega) (by omega)]
    simp
  | float b =>
    simp only [build, read, List.append_assoc, List.cons_append, List.nil_append, nth0, nth1, nth2]
    have hj : b.toNat + j * 2 ^ 32 < 2 ^ 56 := by
      have := b.toNat_lt
      have : j * 2 ^ 32 < 2 ^ 56 - 2 ^ 32 := hf
      omega
    rw [word_code _ 13 hj (by omega), word_add _ 13 hj (by omega)]
    rw [if_neg (by decide), if_neg (by decide), if_neg (by decide), if_pos rfl]
    have he : UInt32.ofNat (b.toNat + j * 2 ^ 32 + 13 * 2 ^ 56) = b := by
      apply UInt32.toNat_inj.mp
      rw [UInt32.toNat_ofNat']
      have := b.toNat_lt
      omega
    rw [he]
  | big v =>
    simp only [build, read, List.append_assoc, List.cons_append, List.nil_append, nth0, nth1, nth2]
    rw [word_code 0 11 (by omega) (by omega)]
    rw [if_neg (by decide), if_neg (by decide), if_pos rfl]
    have hb : low .i64 (v / 2 ^ 64 % 2 ^ 64).toNat = v / 2 ^ 64 := by
      apply low_of
      · simp only [V.valid] at hv
        simp only [ITy.fits, ITy.signed, ITy.bits, if_true]
        omega
      · simp only [ITy.bits]
        omega
    rw [hb]
    congr 2
    omega
  | str x =>
    obtain ⟨h1, h2⟩ := hf
    simp only [build, read, List.append_assoc, List.cons_append, List.nil_append, nth0, nth1, nth2]
    rw [word_code _ 15 h2 (by omega), word_val _ 15 h2 (by omega)]
    rw [if_neg (by decide), if_neg (by decide), if_neg (by decide), if_neg (by decide), if_neg (by decide), if_pos rfl,
      ← List.append_assoc, rdStr_append _ _ _ h1]
    rfl
  | int t v =>
    have ht : ofICode (icode t) = some t := by cases t <;> rfl
    have hn : icode t ≠ 127 ∧ icode t ≠ 1 ∧ icode t ≠ 11 ∧ icode t ≠ 13 ∧ icode t ≠ 14 ∧ icode t ≠ 15 := by cases t <;> decide
    obtain ⟨n1, n2, n3, n4, n5, n6⟩ := hn
    have hl : icode t < 256 := by cases t <;> decide
    by_cases hu : t = .u64
    · subst hu
      simp only [Fits, if_true] at hf
      simp only [V.valid, ITy.fits, ITy.signed, ITy.bits] at hv
      have hb : (v % 2 ^ 64).toNat < 2 ^ 56 := by rw [Int.emod_eq_of_lt (by simpa using hv.1) (by omega)]; omega
      simp only [build, if_true, read, List.append_assoc, List.cons_append, List.nil_append, nth0, nth1, nth2]
      rw [word_code _ 8 hb (by omega)]
      show Res.ok (V.int .u64 (low .u64 _)) = _
      rw [low_of .u64 v]
      · simpa [ITy.fits, ITy.signed, ITy.bits] using hv
      · simp only [ITy.bits]; omega
    · by_cases hi : t = .i64
      · subst hi
        simp only [build, if_neg hu, if_true, read, List.append_assoc, List.cons_append, List.nil_append, nth0, nth1, nth2]
        rw [word_code 0 9 (by omega) (by omega)]
        show Res.ok (V.int .i64 (low .i64 _)) = _
        rw [low_of .i64 v _ hv]
        simp only [ITy.bits]; omega
      · have hbits : t.bits ≠ 64 := by cases t <;> simp_all [ITy.bits]
        simp only [Fits, if_neg hu] at hf
        simp only [build, if_neg hu, if_neg hi]
        by_cases hs : t.signed = true
        · rw [if_pos hs]
          simp only [read, List.append_assoc, List.cons_append, List.nil_append, nth0, nth1, nth2]
          have hb : (v % 2 ^ t.bits).toNat + j * 2 ^ t.bits < 2 ^ 56 := by
            cases t <;> simp_all [ITy.bits, ITy.signed] <;> omega
          rw [word_code _ _ hb hl, word_add _ _ hb hl, if_neg n1, if_neg n2, if_neg n3, if_neg n4, if_neg n5, if_neg n6, ht]
          simp only [if_neg hbits]
          rw [low_of t v _ hv]
          cases t <;> simp_all [ITy.bits, ITy.signed] <;> omega
        · rw [if_neg hs]
          simp only [read, List.append_assoc, List.cons_append, List.nil_append, nth0, nth1, nth2]
          simp only [V.valid, ITy.fits, if_neg hs] at hv
          have hb : v.toNat < 2 ^ 56 := by
            cases t <;> simp_all [ITy.bits, ITy.signed] <;> omega
          rw [word_code _ _ hb hl, word_add _ _ hb hl, if_neg n1, if_neg n2, if_neg n3, if_neg n4, if_neg n5, if_neg n6, ht]
          simp only [if_neg hbits]
          rw [low_of t v]
          · simpa only [ITy.fits, if_neg hs] using hv
          · cases t <;> simp_all [ITy.bits, ITy.signed] <;> omega

/-- A value the tape can hold is read back from where it was written, whatever is written afterwards. -/
theorem C48_roundtrip_partial (d : Tape) (j : Nat) (v : V) (later : List (Nat × V)) (hv : v.valid) (hf : Fits d j v) :
    read (buildAll (build j d v) later) d.words.length = .ok v := by
  obtain ⟨w, s, h⟩ := buildAll_append (build j d v) later
  rw [h]
  exact read_extended d j v w s hv hf

example : V.valid (.int .i16 (-3)) ∧ Fits ⟨[], []⟩ 77 (.int .i16 (-3)) ∧ V.valid (.str [104, 105]) ∧ Fits ⟨[1], []⟩ 0 (.str [104, 105]) := by
  refine ⟨by simp [V.valid, ITy.fits, ITy.signed, ITy.bits], by simp [Fits, ITy.bits], trivial, by simp [Fits]⟩

/-- The unsigned number 2^56 is read back as a signed one, 2^63 as a value of no known type. -/
theorem C48_unsigned_fails : ¬ C48_claim ∧ read (build 0 ⟨[], []⟩ (.int .u64 (2 ^ 56))) 0 = .ok (.int .i64 (2 ^ 56)) ∧
    read (build 0 ⟨[], []⟩ (.int .u64 (2 ^ 63))) 0 = .ok (.other 136) := by
  refine ⟨?_, by decide +kernel, by decide +kernel⟩
  intro h
  have := h ⟨[], []⟩ 0 (.int .u64 (2 ^ 56)) [] (by simp [V.valid, ITy.fits, ITy.signed, ITy.bits])
  revert this; decide +kernel

/-- The uninitialised bytes of a small signed number end up in its type: -3 as 32 bits becomes a string. -/
theorem C48_uninitialised_fails : ¬ C48_claim ∧ ∃ j, read (build j ⟨[], []⟩ (.int .i32 (-3))) 0 = .ub := by
  have h1 : read (build (8 * 2 ^ 24) ⟨[], []⟩ (.int .i32 (-3))) 0 = .ub := by decide +kernel
  refine ⟨?_, _, h1⟩
  intro h
  have := h ⟨[], []⟩ (8 * 2 ^ 24) (.int .i32 (-3)) [] (by simp [V.valid, ITy.fits, ITy.signed, ITy.bits])
  rw [buildAll, show (⟨[], []⟩ : Tape).words.length = 0 from rfl, h1] at this
  cases this

end Verif.DocVal
