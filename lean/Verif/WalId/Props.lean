import Verif.WalId.Spec
import Verif.Text.Lemmas
/-!
# C114: the log id the disk notes is the one a load starts from
-/
namespace Verif.WalId

open Verif.Num Verif.PhysKey Verif.DocVal Verif.Text

/-! ### texts of digits -/

/-- A text of digits is a line of its own. -/
theorem line_digits : ∀ s : Bytes, (∀ c ∈ s, isDigit c = true) → line s = (s, s.length)
  | [], _ => rfl
  | c :: cs, h => by
    have hc := h c (by simp)
    have h10 : c ≠ 10 := by rintro rfl; exact absurd hc (by decide)
    have h13 : c ≠ 13 := by rintro rfl; exact absurd hc (by decide)
    have ih := line_digits cs fun d hd => h d (by simp [hd])
    simp [line, h10, h13, ih]

/-- Digits are read as the number they say. -/
theorem id_digits (s : Bytes) (h : ∀ c ∈ s, isDigit c = true) (hn : natOf s < 2 ^ 64) : idFromString s = natOf s := by
  cases s with
  | nil => rfl
  | cons c cs =>
    have hc := h c (by simp)
    have hsp : isSpace c = false := by
      simp only [isDigit, Bool.and_eq_true, decide_eq_true_eq, UInt8.le_iff_toNat_le] at hc
      simp only [isSpace, Bool.or_eq_false_iff, beq_eq_false_iff_ne, ne_eq, Bool.and_eq_false_iff, decide_eq_false_iff_not,
        UInt8.le_iff_toNat_le]
      have e : (48 : UInt8).toNat = 48 := rfl
      have e9 : (13 : UInt8).toNat = 13 := rfl
      refine ⟨?_, .inr (by omega)⟩
      rintro rfl
      exact absurd hc (by decide)
    have h45 : c ≠ 45 := by rintro rfl; exact absurd hc (by decide)
    have h43 : c ≠ 43 := by rintro rfl; exact absurd hc (by decide)
    have ht : (c :: cs).takeWhile isDigit = c :: cs := List.takeWhile_eq_self_iff.mpr h
    have e : idFromString (c :: cs) = strtoull (c :: cs) := rfl
    rw [e, strtoull, List.dropWhile_cons, hsp]
    simp only [Bool.false_eq_true, if_false, sign, h45, h43, ht]
    rw [if_neg (by omega)]

theorem show_all (n : Nat) : ∀ c ∈ showNat n, isDigit c = true := by
  have h := showNat_digits n
  simp only [isDigits, Bool.and_eq_true, List.all_eq_true] at h
  exact h.2

theorem show_pos (n : Nat) : 0 < (showNat n).length := by
  obtain ⟨c, r, h, _⟩ := showNat_head n
  rw [h]; simp

/-- The text of a larger number is not shorter. -/
theorem show_mono (n : Nat) : ∀ m, m ≤ n → (showNat m).length ≤ (showNat n).length := by
  induction n using showNat.induct with
  | case1 n h => intro m hm; rw [showNat, if_pos (by omega)]; exact show_pos n
  | case2 n h ih =>
    intro m hm
    by_cases h' : m < 10
    · rw [showNat, if_pos h']; exact show_pos n
    · have e1 : showNat m = showNat (m / 10) ++ [UInt8.ofNat (48 + m % 10)] := by rw [showNat, if_neg h']
      have e2 : showNat n = showNat (n / 10) ++ [UInt8.ofNat (48 + n % 10)] := by rw [showNat, if_neg h]
      have := ih (m / 10) (by omega)
      rw [e1, e2, List.length_append, List.length_append]
      simp only [List.length_singleton]; omega

/-! ### the file -/

/-- After a note the file is the text of the id, whatever it was. -/
theorem note_bytes (f : File) (id : Nat) : (f.note id).bytes = showNat id := by simp [File.note, over]

/-- The file after `n` was noted last. -/
def Holds (b : Bytes) (n : Nat) : Prop := b = showNat n ∨ (b = [] ∧ n = 0)

theorem run_holds : ∀ (ops : List Op) (f : File) (n : Nat), Holds f.bytes n → Holds (run f ops).bytes (noted n ops)
  | [], _, _, h => h
  | .note id :: ops, f, n, _ => run_holds ops _ id (.inl (note_bytes f id))
  | .load :: ops, f, n, h => run_holds ops _ n h
  | .restart :: ops, f, n, h => run_holds ops _ n h

theorem holds (ops : List Op) : Holds (run (.open []) ops).bytes (noted 0 ops) := run_holds ops _ 0 (.inr ⟨rfl, rfl⟩)

theorem Holds.digits {b : Bytes} {n : Nat} (h : Holds b n) : ∀ c ∈ b, isDigit c = true := by
  rcases h with rfl | ⟨rfl, _⟩
  · exact show_all n
  · simp

theorem Holds.nat {b : Bytes} {n : Nat} (h : Holds b n) : natOf b = n := by
  rcases h with rfl | ⟨rfl, rfl⟩
  · exact natOf_showNat n
  · rfl

theorem load_digits (f : File) (h : ∀ c ∈ f.bytes, isDigit c = true) (hn : natOf (f.bytes.drop f.pos) < 2 ^ 64) :
    f.load.1 = natOf (f.bytes.drop f.pos) ∧ f.load.2 = ⟨f.bytes, f.pos + (f.bytes.length - f.pos)⟩ := by
  have hd : ∀ c ∈ f.bytes.drop f.pos, isDigit c = true := fun c hc => h c (List.mem_of_mem_drop hc)
  simp only [File.load, line_digits _ hd, List.length_drop, and_true]
  exact id_digits _ hd hn

theorem asked_holds {b : Bytes} {n : Nat} (h : Holds b n) (hn : n < 2 ^ 64) : (File.open b).load.1 = n := by
  have := (load_digits (.open b) h.digits (by simpa [File.open, h.nat] using hn)).1
  simpa [File.open, h.nat] using this

theorem noted_fit : ∀ (ops : List Op) (n : Nat), n < 2 ^ 64 → Fit ops → noted n ops < 2 ^ 64
  | [], _, hn, _ => hn
  | .note id :: ops, _, _, h => noted_fit ops id (h id (by simp)) fun i hi => h i (by simp [hi])
  | .load :: ops, n, hn, h => noted_fit ops n hn fun i hi => h i (by simp [hi])
  | .restart :: ops, n, hn, h => noted_fit ops n hn fun i hi => h i (by simp [hi])

/-- **C114**: whatever was noted, asked for and opened again in any order, a program that starts reads the id noted last. -/
theorem C114_noted (ops : List Op) (h : Fit ops) : asked ops = noted 0 ops :=
  asked_holds (holds ops) (noted_fit ops 0 (by decide) h)

example : asked [.note 99, .load, .note 100, .restart, .note 7] = 7 := C114_noted _ (by
  intro id hid; simp at hid; omega)

/-- **C114**: the same for the largest id there is. -/
example : asked [.note (2 ^ 64 - 1)] = 2 ^ 64 - 1 := C114_noted _ (by intro id hid; simp at hid; omega)

/-- **C114**: the first load of a program answers with the id noted last, also if it has noted ids itself before. -/
theorem C114_first_load (ops : List Op) (ids : List Nat) (h : Fit (ops ++ ids.map .note)) :
    (run (.open []) (ops ++ .restart :: ids.map .note)).load.1 = noted 0 (ops ++ ids.map .note) := by
  have hp : ∀ (ids : List Nat) (f : File), (run f (ids.map .note)).pos = f.pos := by
    intro ids
    induction ids with
    | nil => intro f; rfl
    | cons i is ih => intro f; simp only [List.map_cons, run, step]; rw [ih]; rfl
  have hr : ∀ (a b : List Op) (f : File), run f (a ++ b) = run (run f a) b := by
    intro a
    induction a with
    | nil => intro b f; rfl
    | cons o os ih => intro b f; simp only [List.cons_append, run]; exact ih b _
  have hn : ∀ (a b : List Op) (n : Nat), noted n (a ++ b) = noted (noted n a) b := by
    intro a
    induction a with
    | nil => intro b n; rfl
    | cons o os ih => intro b n; cases o <;> simp only [List.cons_append, noted] <;> exact ih b _
  have hh : Holds (run (.open []) (ops ++ .restart :: ids.map .note)).bytes (noted 0 (ops ++ ids.map .note)) := by
    have := holds (ops ++ .restart :: ids.map .note)
    rw [hn] at this ⊢
    exact this
  have h0 : (run (.open []) (ops ++ .restart :: ids.map .note)).pos = 0 := by
    rw [hr]; simp only [run, step]; rw [hp]; rfl
  have hb := asked_holds hh (noted_fit _ 0 (by decide) h)
  have : run (.open []) (ops ++ .restart :: ids.map .note) =
      .open (run (.open []) (ops ++ .restart :: ids.map .note)).bytes := by
    generalize run (.open []) (ops ++ .restart :: ids.map .note) = f at h0
    cases f; simp only at h0; subst h0; rfl
  rw [this]; exact hb

example : (run (.open []) ([.note 99, .load] ++ .restart :: [5, 6].map .note)).load.1 = 6 :=
  C114_first_load _ _ (by intro id hid; simp at hid; omega)

/-- **C114 fails**: the second load of a program answers 0, whatever was noted before the first: `read_line` reads on where
it stopped. -/
theorem C114_again_fails (ops : List Op) : (run (.open []) (ops ++ [.restart, .load])).load.1 = 0 := by
  have hr : ∀ (a b : List Op) (f : File), run f (a ++ b) = run (run f a) b := by
    intro a
    induction a with
    | nil => intro b f; rfl
    | cons o os ih => intro b f; simp only [List.cons_append, run]; exact ih b _
  rw [hr]
  have hd := (holds ops).digits
  generalize run (.open []) ops = f at hd
  have hl : (File.open f.bytes).load.2 = ⟨f.bytes, f.bytes.length⟩ := by
    simp only [File.load, File.open, List.drop_zero, line_digits _ hd, Nat.zero_add]
  simp only [run, step, hl]
  simp [File.load, line, idFromString]

example : (run (.open []) ([.note 42] ++ [.restart, .load])).load.1 = 0 ∧ noted 0 ([.note 42] ++ [.restart, .load]) = 42 :=
  ⟨C114_again_fails _, rfl⟩

/-- **C114 fails**: if the id has become longer in between, the second load answers with the digits that were added. -/
theorem C114_tail_fails : (run (.open []) [.note 9, .restart, .load, .note 12]).load.1 = 2 := by decide +kernel

/-! ### stops -/

/-- What is on the disk when the program stops is made of digits. -/
theorem stopped_bytes (f : File) (id k : Nat) :
    f.stopped id k = (showNat id).take k ++ f.bytes.drop (min k (showNat id).length) := by
  simp [File.stopped, over]

/-- **C114**: if the program stops before a byte is written, or after all are and before the file is cut, the id read is
the one before or the new one, as long as ids do not get smaller.
Partial: for a stop in the middle of the text see `C114_torn_fails`. -/
theorem C114_stop_partial (ops : List Op) (id k : Nat) (h : Fit ops) (hid : id < 2 ^ 64) (hle : noted 0 ops ≤ id)
    (hk : k = 0 ∨ (showNat id).length ≤ k) : askedStopped ops id k = if k = 0 then noted 0 ops else id := by
  have hh := holds ops
  have hf := noted_fit ops 0 (by decide) h
  unfold askedStopped
  generalize run (.open []) ops = f at hh
  rw [stopped_bytes]
  by_cases h0 : k = 0
  · subst h0
    simpa using asked_holds hh hf
  · have hk' := hk.resolve_left h0
    rw [if_neg h0, List.take_of_length_le hk', Nat.min_eq_right hk']
    have hlen : f.bytes.length ≤ (showNat id).length := by
      rcases hh with e | ⟨e, _⟩
      · rw [e]; exact show_mono id _ hle
      · rw [e]; simp
    rw [List.drop_eq_nil_of_le hlen, List.append_nil]
    exact asked_holds (.inl rfl) hid

example : askedStopped [.note 99] 100 3 = 100 := C114_stop_partial _ _ _ (by intro i hi; simp at hi; omega) (by decide) (by decide)
  (.inr (by decide +kernel))

/-- **C114**: if the new id differs from the one before in its last digit alone, a stop anywhere leaves one of the two.
Partial: see `C114_torn_fails`. -/
theorem C114_digit_partial (ops : List Op) (id k : Nat) (h : Fit ops) (hid : id < 2 ^ 64) (hn : (run (.open []) ops).bytes ≠ [])
    (he : noted 0 ops / 10 = id / 10) : askedStopped ops id k = noted 0 ops ∨ askedStopped ops id k = id := by
  have hh := holds ops
  have hf := noted_fit ops 0 (by decide) h
  unfold askedStopped
  generalize run (.open []) ops = f at hh hn
  generalize noted 0 ops = m at *
  have hb : f.bytes = showNat m := hh.resolve_right fun e => hn e.1
  obtain ⟨p, a, b, ha, hb'⟩ : ∃ (p : Bytes) (a b : UInt8), showNat m = p ++ [a] ∧ showNat id = p ++ [b] := by
    by_cases h1 : m < 10
    · have h2 : id < 10 := by omega
      refine ⟨[], UInt8.ofNat (48 + m), UInt8.ofNat (48 + id), ?_, ?_⟩
      · rw [showNat, if_pos h1]; rfl
      · rw [showNat, if_pos h2]; rfl
    · have h2 : ¬ id < 10 := by omega
      refine ⟨showNat (m / 10), UInt8.ofNat (48 + m % 10), UInt8.ofNat (48 + id % 10), ?_, ?_⟩
      · rw [showNat, if_neg h1]
      · rw [showNat, if_neg h2, he]
  rw [stopped_bytes, hb]
  by_cases hk : k ≤ p.length
  · left
    have e : (showNat id).take k ++ (showNat m).drop (min k (showNat id).length) = showNat m := by
      have hm : min k (showNat id).length = k := by rw [hb']; simp; omega
      rw [hm, ha, hb', List.take_append_of_le_length hk]
      conv => rhs; rw [← List.take_append_drop k (p ++ [a])]
      rw [List.take_append_of_le_length hk]
    rw [e]; exact asked_holds (.inl rfl) hf
  · right
    have hl : (showNat id).length ≤ k := by rw [hb']; simp; omega
    have e : (showNat id).take k ++ (showNat m).drop (min k (showNat id).length) = showNat id := by
      rw [List.take_of_length_le hl, Nat.min_eq_right hl, List.drop_eq_nil_of_le (by rw [ha, hb']; simp), List.append_nil]
    rw [e]; exact asked_holds (.inl rfl) hid

example : askedStopped [.note 1234] 1239 2 = 1234 ∨ askedStopped [.note 1234] 1239 2 = 1239 :=
  C114_digit_partial _ _ _ (by intro i hi; simp at hi; omega) (by decide) (by decide +kernel) (by decide)

/-- **C114 fails**: the program stops when one of two bytes is written, with 19 noted and 20 to be noted: 29 is read, an id
that was never given, and the records up to it are not played again. -/
theorem C114_torn_fails : askedStopped [.note 19] 20 1 = 29 ∧ askedStopped [.note 9] 10 1 = 1 := by decide +kernel

/-- **C114 fails**: a smaller id over a longer one is not cut yet. -/
theorem C114_shorter_fails : askedStopped [.note 100] 7 1 = 700 := by decide +kernel

/-- **C114 fails** in full, in both parts. -/
theorem C114_fails : ¬ C114_noted_claim ∧
    ¬ (∀ ops, Fit ops → (run (.open []) ops).load.1 = noted 0 ops) ∧
    ¬ (∀ ops id k, Fit ops → id < 2 ^ 64 → noted 0 ops ≤ id → askedStopped ops id k = noted 0 ops ∨ askedStopped ops id k = id) := by
  have h1 : ¬ (∀ ops, Fit ops → (run (.open []) ops).load.1 = noted 0 ops) := by
    intro h
    have := h ([.note 42] ++ [.restart, .load]) (by intro i hi; simp at hi; omega)
    rw [C114_again_fails] at this
    exact absurd this (by decide)
  refine ⟨fun h => h1 h.1, h1, fun h => ?_⟩
  have := h [.note 19] 20 1 (by intro i hi; simp at hi; omega) (by decide) (by decide)
  rw [C114_torn_fails.1] at this
  exact absurd this (by decide)

end Verif.WalId
