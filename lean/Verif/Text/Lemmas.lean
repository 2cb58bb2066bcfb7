import Verif.Text.Spec
import Verif.DocPack.Lemmas
import Mathlib.Data.List.TakeWhile
/-!
Lemmas for C95.
-/
namespace Verif.Text

open Verif.Num Verif.PhysKey Verif.DocVal Verif.Json Verif.DocPack

/-! ### number texts -/

theorem isDigit_num {c : UInt8} (h : isDigit c = true) : numChar c = true := by simp [numChar, h]

theorem isDigits_all {s : Bytes} (h : isDigits s = true) : ∀ c ∈ s, numChar c = true := by
  simp only [isDigits, Bool.and_eq_true, List.all_eq_true] at h
  exact fun c hc => isDigit_num (h.2 c hc)

theorem isExp_all {s : Bytes} (h : isExp s = true) : ∀ c ∈ s, numChar c = true := by
  cases s with
  | nil => simp
  | cons c r =>
    simp only [isExp, Bool.and_eq_true] at h
    obtain ⟨h1, h2⟩ := h
    have hc : numChar c = true := by
      simp only [Bool.or_eq_true, beq_iff_eq] at h1
      rcases h1 with rfl | rfl <;> decide
    intro x hx
    rcases List.mem_cons.mp hx with rfl | hx
    · exact hc
    · split at h2
      · rcases List.mem_cons.mp hx with rfl | hx
        · decide
        · exact isDigits_all h2 x hx
      · rcases List.mem_cons.mp hx with rfl | hx
        · decide
        · exact isDigits_all h2 x hx
      · exact isDigits_all h2 x hx

theorem take_all {s : Bytes} (h : ∀ c ∈ s.dropWhile isDigit, numChar c = true) : ∀ c ∈ s, numChar c = true := by
  intro c hc
  rw [← List.takeWhile_append_dropWhile (p := isDigit) (l := s)] at hc
  rcases List.mem_append.mp hc with hc | hc
  · exact isDigit_num (List.mem_takeWhile_imp hc)
  · exact h c hc

theorem isTail_all {s : Bytes} (h : isTail s = true) : ∀ c ∈ s, numChar c = true := by
  unfold isTail at h
  split at h
  · rename_i r
    simp only [Bool.and_eq_true] at h
    intro c hc
    rcases List.mem_cons.mp hc with rfl | hc
    · decide
    · exact take_all (isExp_all h.2) c hc
  · exact isExp_all h

theorem isUnsigned_all {s : Bytes} (h : isUnsigned s = true) : ∀ c ∈ s, numChar c = true := by
  simp only [isUnsigned, Bool.and_eq_true] at h
  exact take_all (isTail_all h.2)

theorem isNumber_all {s : Bytes} (h : isNumber s = true) : ∀ c ∈ s, numChar c = true := by
  unfold isNumber at h
  split at h
  · intro c hc
    rcases List.mem_cons.mp hc with rfl | hc
    · decide
    · exact isUnsigned_all h c hc
  · exact isUnsigned_all h

theorem isUnsigned_head {s : Bytes} (h : isUnsigned s = true) : ∃ c r, s = c :: r ∧ isDigit c = true := by
  cases s with
  | nil => simp [isUnsigned] at h
  | cons c r =>
    refine ⟨c, r, rfl, ?_⟩
    by_contra hc
    simp [isUnsigned, hc] at h

theorem isNumber_head {s : Bytes} (h : isNumber s = true) : ∃ c r, s = c :: r ∧ (isDigit c = true ∨ c = 45) := by
  unfold isNumber at h
  split at h
  · exact ⟨45, _, rfl, .inr rfl⟩
  · obtain ⟨c, r, e, hc⟩ := isUnsigned_head h
    exact ⟨c, r, e, .inl hc⟩

/-! ### printed integers -/

theorem digit_ok : ∀ n, n < 10 → isDigit (UInt8.ofNat (48 + n)) = true ∧ (UInt8.ofNat (48 + n)).toNat - 48 = n ∧
    (UInt8.ofNat (48 + n) = 48 → n = 0) := by decide

theorem showNat_digits (n : Nat) : isDigits (showNat n) = true := by
  induction n using showNat.induct with
  | case1 n h => unfold showNat; rw [if_pos h]; simp only [isDigits, List.isEmpty_cons, List.all_cons, (digit_ok n h).1]; rfl
  | case2 n h ih =>
    unfold showNat; rw [if_neg h]
    simp only [isDigits, Bool.and_eq_true, List.all_eq_true] at ih ⊢
    refine ⟨by simp, fun c hc => ?_⟩
    rcases List.mem_append.mp hc with hc | hc
    · exact ih.2 c hc
    · simp only [List.mem_singleton] at hc
      subst hc
      exact (digit_ok _ (Nat.mod_lt _ (by omega))).1

theorem natOf_showNat (n : Nat) : natOf (showNat n) = n := by
  induction n using showNat.induct with
  | case1 n h => unfold showNat; rw [if_pos h]; simp only [natOf, List.foldl]; rw [(digit_ok n h).2.1]; omega
  | case2 n h ih =>
    unfold showNat; rw [if_neg h]
    simp only [natOf, List.foldl_append, List.foldl] at ih ⊢
    rw [ih, (digit_ok _ (Nat.mod_lt _ (by omega))).2.1]
    omega

theorem showNat_head (n : Nat) : ∃ c r, showNat n = c :: r ∧ (c = 48 → n = 0) := by
  induction n using showNat.induct with
  | case1 n h => unfold showNat; rw [if_pos h]; exact ⟨_, _, rfl, (digit_ok n h).2.2⟩
  | case2 n h ih =>
    obtain ⟨c, r, e, hc⟩ := ih
    unfold showNat; rw [if_neg h, e]
    exact ⟨c, _, rfl, fun h0 => by have := hc h0; omega⟩

theorem showNat_unsigned (n : Nat) : isUnsigned (showNat n) = true := by
  have hd := showNat_digits n
  simp only [isDigits, Bool.and_eq_true, List.all_eq_true] at hd
  have h1 : (showNat n).takeWhile isDigit = showNat n := List.takeWhile_eq_self_iff.mpr hd.2
  have h2 : (showNat n).dropWhile isDigit = [] := List.dropWhile_eq_nil_iff.mpr hd.2
  simp only [isUnsigned, h1, h2, Bool.and_eq_true]
  refine ⟨⟨hd.1, ?_⟩, rfl⟩
  obtain ⟨c, r, e, hc⟩ := showNat_head n
  by_cases h0 : n = 0
  · subst h0; simp [showNat]
  · rw [e]
    simp only [List.head?_cons, Bool.or_eq_true]
    right
    simp only [bne_iff_ne, ne_eq, Option.some.injEq]
    exact fun h => h0 (hc h)

theorem isUnsigned_not45 {s : Bytes} (h : isUnsigned s = true) : ∀ r, s ≠ 45 :: r := by
  intro r e
  obtain ⟨c, r', e', hc⟩ := isUnsigned_head h
  rw [e] at e'
  cases e'
  exact absurd hc (by decide)

theorem isNumber_pos {s : Bytes} (h : ∀ r, s ≠ 45 :: r) : isNumber s = isUnsigned s := by
  unfold isNumber
  split
  · rename_i r; exact absurd rfl (h r)
  · rfl

theorem intOf_pos {s : Bytes} (h : ∀ r, s ≠ 45 :: r) : intOf s = if isDigits s then some (natOf s : Int) else none := by
  unfold intOf
  split
  · rename_i r; exact absurd rfl (h r)
  · rfl

theorem showInt_number (v : Int) : isNumber (showInt v) = true ∧ intOf (showInt v) = some v := by
  have hu := showNat_unsigned v.natAbs
  unfold showInt
  split
  · refine ⟨hu, ?_⟩
    simp only [intOf, showNat_digits, if_true, natOf_showNat]
    congr 1
    omega
  · rw [isNumber_pos (isUnsigned_not45 hu), intOf_pos (isUnsigned_not45 hu)]
    refine ⟨hu, ?_⟩
    simp only [showNat_digits, if_true, natOf_showNat]
    congr 1
    omega

/-! ### reading what was printed -/

/-- What may follow a value. -/
def Ends (r : Bytes) : Prop := r = [] ∨ ∃ c r', r = c :: r' ∧ (c = 44 ∨ c = 93 ∨ c = 125)

/-- What a value begins with. -/
def Starts (t : Bytes) : Prop := ∃ c r, t = c :: r ∧ c ≠ 32 ∧ c ≠ 9 ∧ c ≠ 10 ∧ c ≠ 13 ∧ c ≠ 93 ∧ c ≠ 125

theorem Starts.skip {t : Bytes} (h : Starts t) (r : Bytes) : skip (t ++ r) = t ++ r := by
  obtain ⟨c, t', rfl, h1, h2, h3, h4, _⟩ := h
  simp [Text.skip, h1, h2, h3, h4]

theorem Ends.num {r : Bytes} (h : Ends r) {t : Bytes} (ht : ∀ c ∈ t, numChar c = true) :
    (t ++ r).takeWhile numChar = t ∧ (t ++ r).dropWhile numChar = r := by
  have hr : r.takeWhile numChar = [] ∧ r.dropWhile numChar = r := by
    rcases h with rfl | ⟨c, r', rfl, hc⟩
    · simp
    · have : numChar c = false := by rcases hc with rfl | rfl | rfl <;> decide
      simp [this]
  refine ⟨?_, ?_⟩
  · rw [List.takeWhile_append_of_pos ht, hr.1, List.append_nil]
  · rw [List.dropWhile_append_of_pos ht, hr.2]

/-- The text is read by `p` as `j`, whatever may follow it. -/
def Reads (p : Bytes → Option (J × Bytes)) (t : Bytes) (j : J) : Prop :=
  Starts t ∧ ∀ rest, Ends rest → p (t ++ rest) = some (j, rest)

theorem value_atom (lib : Lib) (d : Nat) {c : UInt8} {r : Bytes} (h1 : c ≠ 123) (h2 : c ≠ 91) (h3 : c ≠ 34) :
    value lib d (c :: r) = atom lib (c :: r) := by
  cases d with
  | zero => unfold value; split <;> simp_all
  | succ d => unfold value; split <;> simp_all

theorem atom_number (lib : Lib) {c : UInt8} {r : Bytes} (h1 : c ≠ 116) (h2 : c ≠ 102) (h3 : c ≠ 110) :
    atom lib (c :: r) = if isNumber ((c :: r).takeWhile numChar) then
      some (number lib ((c :: r).takeWhile numChar), (c :: r).dropWhile numChar) else none := by
  unfold atom; split <;> simp_all

theorem digit_range {c : UInt8} (h : isDigit c = true ∨ c = 45) :
    c ≠ 123 ∧ c ≠ 91 ∧ c ≠ 34 ∧ c ≠ 116 ∧ c ≠ 102 ∧ c ≠ 110 ∧ c ≠ 32 ∧ c ≠ 9 ∧ c ≠ 10 ∧ c ≠ 13 ∧ c ≠ 93 ∧ c ≠ 125 := by
  refine ⟨?_, ?_, ?_, ?_, ?_, ?_, ?_, ?_, ?_, ?_, ?_, ?_⟩ <;> (rintro rfl; revert h; decide)

theorem reads_number (lib : Lib) (d : Nat) {t : Bytes} (h : isNumber t = true) : Reads (value lib d) t (number lib t) := by
  obtain ⟨c, r, e, hc⟩ := isNumber_head h
  obtain ⟨a1, a2, a3, a4, a5, a6, a7, a8, a9, a10, a11, a12⟩ := digit_range hc
  refine ⟨⟨c, r, e, a7, a8, a9, a10, a11, a12⟩, fun rest hr => ?_⟩
  obtain ⟨h1, h2⟩ := hr.num (isNumber_all h)
  rw [e] at h1 h2 ⊢
  rw [List.cons_append] at h1 h2 ⊢
  rw [value_atom lib d a1 a2 a3, atom_number lib a4 a5 a6, h1, h2, ← e, if_pos h]

theorem text_plain {lib : Lib} : ∀ {s : Bytes} (r : Bytes), (∀ c ∈ s, 32 ≤ c ∧ c ≠ 34 ∧ c ≠ 92) → text (s ++ 34 :: r) = some (s, r)
  | [], r, _ => by unfold text; simp
  | c :: s, r, h => by
    obtain ⟨h1, h2, h3⟩ := h c (by simp)
    rw [List.cons_append]
    unfold text
    rw [if_neg h2, if_neg (by simpa using h1), if_neg h3, text_plain (lib := lib) r fun x hx => h x (by simp [hx])]
    rfl

theorem string_plain {lib : Lib} {s : Bytes} (h : Plain lib s) (r : Bytes) : string lib (s ++ 34 :: r) = some (s, r) := by
  unfold string
  rw [text_plain (lib := lib) r h.2]
  simp [h.1]

theorem value_string (lib : Lib) (d : Nat) (r : Bytes) :
    value lib d (34 :: r) = (string lib r).map fun x => (.string x.1, x.2) := by
  cases d <;> rfl

theorem reads_string {lib : Lib} (d : Nat) {s : Bytes} (h : Plain lib s) : Reads (value lib d) (34 :: s ++ [34]) (.string s) := by
  refine ⟨⟨34, s ++ [34], rfl, by decide⟩, fun rest _ => ?_⟩
  have : (34 :: s ++ [34]) ++ rest = 34 :: (s ++ 34 :: rest) := by simp
  rw [this, value_string, string_plain h]
  rfl

theorem reads_atom (lib : Lib) (d : Nat) (t : Bytes) (j : J) (h : ∀ rest, atom lib (t ++ rest) = some (j, rest)) (c : UInt8) (r : Bytes)
    (e : t = c :: r) (h1 : c ≠ 123) (h2 : c ≠ 91) (h3 : c ≠ 34) (hs : Starts t) : Reads (value lib d) t j := by
  refine ⟨hs, fun rest _ => ?_⟩
  have := h rest
  rw [e] at this ⊢
  rw [List.cons_append] at this ⊢
  rw [value_atom lib d h1 h2 h3, this]

/-! ### values -/

/-- A value comes back. -/
structure LeafWorks (lib : Lib) (v : V) : Prop where
  works : ∃ t j w, showV lib v = .ok t ∧ (∀ d, Reads (value lib d) t j) ∧ buildIndex j = .ok (.leaf w) ∧ SameV v w

theorem put_i64' (n : Int) (h : -2 ^ 63 ≤ n ∧ n < 2 ^ 63) : Query.put (.int .i64 n) = .ok (.int .i64 n) := by
  refine put_ok _ ?_ ?_
  · simp [V.valid, ITy.fits, ITy.signed, ITy.bits]; omega
  · simp [DocVal.Fits]

theorem number_means {lib : Lib} {t : Bytes} {x : FVal} (h : Means lib t x) :
    ∃ w, buildIndex (number lib t) = .ok (.leaf w) ∧ num w = some x := by
  obtain ⟨_, h⟩ := h
  unfold number
  cases e : intOf t with
  | some n =>
    rw [e] at h
    obtain ⟨h1, h2, rfl⟩ := h
    simp only [h1, h2, and_self, if_true, buildIndex, primitive]
    exact ⟨.int .i64 n, by rw [put_i64' n ⟨h1, h2⟩]; rfl, rfl⟩
  | none =>
    rw [e] at h
    simp only [buildIndex, primitive]
    exact ⟨.double (lib.double t), by rw [put_double]; rfl, by simp only [num]; rw [← h]⟩

theorem reads_means {lib : Lib} {t : Bytes} {x : FVal} {v : V} (h : Means lib t x) (hv : num v = some x) (hs : showV lib v = .ok t) :
    LeafWorks lib v := by
  obtain ⟨w, h1, h2⟩ := number_means h
  exact ⟨t, number lib t, w, hs, fun d => reads_number lib d h.1, h1, .inr ⟨x, hv, h2⟩⟩

theorem means_int (lib : Lib) {v : Int} (h : -2 ^ 63 ≤ v ∧ v < 2 ^ 63) : Means lib (showInt v) (.fin (v * one)) := by
  obtain ⟨h1, h2⟩ := showInt_number v
  refine ⟨h1, ?_⟩
  rw [h2]
  exact ⟨h.1, h.2, rfl⟩


theorem leaf_works {lib : Lib} (hh : Honest lib) {v : V} (hv : v.valid) (hl : ∀ s, v = .str s → s.length < 2 ^ 31) (h : Shown lib v) :
    LeafWorks lib v := by
  cases v with
  | na =>
    refine ⟨_, .null, .na, rfl, fun d => ?_, by simp only [buildIndex, primitive]; rw [put_ok .na trivial trivial]; rfl, .inl rfl⟩
    exact reads_atom lib d _ _ (fun _ => rfl) 110 _ rfl (by decide) (by decide) (by decide) ⟨110, _, rfl, by decide⟩
  | bool b =>
    cases b with
    | true =>
      refine ⟨_, .bool true, .bool true, rfl, fun d => ?_, by simp only [buildIndex, primitive]; rw [put_ok (.bool true) trivial trivial]; rfl, .inl rfl⟩
      exact reads_atom lib d _ _ (fun _ => rfl) 116 _ rfl (by decide) (by decide) (by decide) ⟨116, _, rfl, by decide⟩
    | false =>
      refine ⟨_, .bool false, .bool false, rfl, fun d => ?_, by simp only [buildIndex, primitive]; rw [put_ok (.bool false) trivial trivial]; rfl, .inl rfl⟩
      exact reads_atom lib d _ _ (fun _ => rfl) 102 _ rfl (by decide) (by decide) (by decide) ⟨102, _, rfl, by decide⟩
  | int t v =>
    have hf : -2 ^ 63 ≤ v ∧ v < 2 ^ 63 ∧ showV lib (.int t v) = .ok (showInt v) := by
      have hv' : t.fits v := hv
      have h' : t.bits = 64 → lib.wide t.signed v = .ok v ∧ v < 2 ^ 63 := h
      unfold ITy.fits at hv'
      simp only [showV, showITy]
      cases t <;> simp [ITy.signed, ITy.bits] at hv' h' ⊢ <;> first | omega | (simp only [h'.1, Res.bind, and_true]; omega)
    exact reads_means (means_int lib ⟨hf.1, hf.2.1⟩) rfl hf.2.2
  | big v => exact h.elim
  | float b =>
    refine reads_means h.2 rfl ?_
    simp only [showV, showFloat]
    rw [if_pos (by have := h.1; omega)]
  | double b =>
    obtain ⟨h1, z, hz⟩ := h
    refine reads_means (hh.exact b z hz) (by simp only [num, hz]) ?_
    simp only [showV, showFloat]
    rw [if_pos (by omega)]
  | str s =>
    refine ⟨_, .string s, .str s, rfl, fun d => reads_string d h, ?_, .inl rfl⟩
    simp only [buildIndex, primitive]
    rw [put_str s (hl s rfl)]; rfl
  | other c => exact h.elim

/-! ### containers -/

/-- The pieces of an array after the first. -/
def commas (ts : List Bytes) : Bytes := ts.flatMap fun t => 44 :: t

theorem ends_commas (ts : List Bytes) {c : UInt8} (hc : c = 93 ∨ c = 125) (r : Bytes) : Ends (commas ts ++ c :: r) := by
  cases ts with
  | nil => exact .inr ⟨c, r, rfl, by tauto⟩
  | cons t ts => exact .inr ⟨44, t ++ commas ts ++ c :: r, by simp [commas], .inl rfl⟩

theorem skip_comma (r : Bytes) : skip (44 :: r) = 44 :: r := rfl

theorem skip_quote (r : Bytes) : skip (34 :: r) = 34 :: r := rfl

theorem skip_colon (r : Bytes) : skip (58 :: r) = 58 :: r := rfl

theorem elements_ok {p : Bytes → Option (J × Bytes)} (rest : Bytes) : ∀ (ts : List Bytes) (js : List J) (t : Bytes) (j : J) (n : Nat),
    Reads p t j → List.Forall₂ (Reads p) ts js → ts.length < n →
    elements p n (t ++ (commas ts ++ 93 :: rest)) = some (j :: js, rest)
  | [], _, t, j, n + 1, h, .nil, _ => by
    unfold elements
    rw [h.1.skip, h.2 _ (ends_commas [] (.inl rfl) rest)]
    rfl
  | t' :: ts, j' :: js, t, j, n + 1, h, .cons h1 h2, hn => by
    unfold elements
    rw [h.1.skip, h.2 _ (ends_commas (t' :: ts) (.inl rfl) rest)]
    have e : commas (t' :: ts) ++ 93 :: rest = 44 :: (t' ++ (commas ts ++ 93 :: rest)) := by simp [commas]
    simp only [e, skip_comma]
    rw [elements_ok rest ts js t' j' n h1 h2 (by simpa using hn)]
    rfl

/-- A field: its name and the text of its value. -/
def fieldText (f : Bytes × Bytes) : Bytes := 34 :: f.1 ++ [34] ++ [58] ++ f.2

/-- A field is read. -/
def FReads (lib : Lib) (p : Bytes → Option (J × Bytes)) (f : Bytes × Bytes) (g : Bytes × J) : Prop :=
  f.1 = g.1 ∧ Plain lib f.1 ∧ Reads p f.2 g.2

theorem members_ok {lib : Lib} {p : Bytes → Option (J × Bytes)} (rest : Bytes) : ∀ (fs : List (Bytes × Bytes)) (gs : List (Bytes × J))
    (f : Bytes × Bytes) (g : Bytes × J) (n : Nat),
    FReads lib p f g → List.Forall₂ (FReads lib p) fs gs → fs.length < n → ((g :: gs).map Prod.fst).Nodup →
    members lib p n (fieldText f ++ (commas (fs.map fieldText) ++ 125 :: rest)) = some (g :: gs, rest)
  | [], _, (k, t), (k', j), n + 1, ⟨hk, hp, h⟩, .nil, _, _ => by
    simp only at hk hp h
    subst hk
    have e : fieldText (k, t) ++ (commas (([] : List (Bytes × Bytes)).map fieldText) ++ 125 :: rest) =
        34 :: (k ++ 34 :: 58 :: (t ++ 125 :: rest)) := by simp [fieldText, commas]
    rw [e]
    unfold members
    rw [skip_quote]
    simp only
    rw [string_plain hp]
    simp only
    rw [skip_colon]
    simp only
    rw [h.1.skip, h.2 (125 :: rest) (ends_commas [] (.inr rfl) rest)]
    rfl
  | f' :: fs, g' :: gs, (k, t), (k', j), n + 1, ⟨hk, hp, h⟩, .cons h1 h2, hn, hd => by
    simp only at hk hp h
    subst hk
    have e : fieldText (k, t) ++ (commas ((f' :: fs).map fieldText) ++ 125 :: rest) =
        34 :: (k ++ 34 :: 58 :: (t ++ (44 :: (fieldText f' ++ (commas (fs.map fieldText) ++ 125 :: rest))))) := by
      simp [fieldText, commas]
    rw [e]
    unfold members
    rw [skip_quote]
    simp only
    rw [string_plain hp]
    simp only
    rw [skip_colon]
    simp only
    rw [h.1.skip, h.2 _ (.inr ⟨44, _, rfl, .inl rfl⟩)]
    have hd' : ((g' :: gs).map Prod.fst).Nodup := by
      rw [List.map_cons] at hd
      exact (List.nodup_cons.mp hd).2
    simp only [skip_comma]
    rw [members_ok rest fs gs f' g' n h1 h2 (by simpa using hn) hd']
    have hnot : k ∉ (g' :: gs).map Prod.fst := by
      rw [List.map_cons] at hd
      exact (List.nodup_cons.mp hd).1
    simp only [Option.map, keepLast, if_neg hnot]

/-! ### documents -/

/-- The same document, but for the types of numbers. -/
inductive Like : Node → Node → Prop where
  | leaf (v w) (h : SameV v w) : Like (.leaf v) (.leaf w)
  | arr (xs ys) (hl : xs.length = ys.length) (h : ∀ (i : Nat) x y, xs[i]? = some x → ys[i]? = some y → Like x y) : Like (.arr xs) (.arr ys)
  | obj (fs gs : List (Bytes × Node)) (hk : ∀ k, lookN fs k = none ↔ lookN gs k = none)
      (h : ∀ k x y, lookN fs k = some x → lookN gs k = some y → Like x y) : Like (.obj fs) (.obj gs)

theorem Like.alike {n m : Node} (h : Like n m) (l : Loc) : Alike (seen n l) (seen m l) := by
  induction h generalizing l with
  | leaf v w h =>
    cases l with
    | nil => exact .value _ _ h
    | cons k l => cases k <;> exact .nothing
  | arr xs ys hl h ih =>
    cases l with
    | nil => exact .array
    | cons k l =>
      cases k with
      | name k => exact .nothing
      | index i =>
        simp only [seen, reach]
        cases hx : xs[i]? with
        | none =>
          have hy : ys[i]? = none := by rw [List.getElem?_eq_none_iff] at hx ⊢; omega
          rw [hy]; exact .nothing
        | some x =>
          have hi : i < ys.length := by
            rw [← hl]
            exact (List.getElem?_eq_some_iff.mp hx).1
          have hy : ys[i]? = some ys[i] := List.getElem?_eq_getElem hi
          rw [hy]
          exact ih i x _ hx hy l
  | obj fs gs hk h ih =>
    cases l with
    | nil => exact .object
    | cons k l =>
      cases k with
      | index i => exact .nothing
      | name k =>
        simp only [seen, reach]
        cases h1 : lookN fs k with
        | none => rw [(hk k).mp h1]; exact .nothing
        | some x =>
          cases h2 : lookN gs k with
          | none => rw [(hk k).mpr h2] at h1; cases h1
          | some y => exact ih k x y h1 h2 l

/-- A node comes back within `d` containers. -/
def Works (lib : Lib) (d : Nat) (n : Node) : Prop :=
  ∃ t j m, toJson lib n = .ok t ∧ (∀ d', d ≤ d' → Reads (value lib d') t j) ∧ buildIndex j = .ok m ∧ Like n m

theorem comma_long {res : Bytes} (h : 1 < res.length) : comma res = res ++ [44] := if_pos h

theorem itemsJson_ok (lib : Lib) : ∀ (xs : List Node) (ts : List Bytes) (res : Bytes), 1 < res.length →
    List.Forall₂ (fun x t => toJson lib x = .ok t) xs ts → itemsJson lib res xs = .ok (res ++ commas ts)
  | [], _, res, _, .nil => by simp [itemsJson, commas]
  | x :: xs, t :: ts, res, hr, .cons h1 h2 => by
    rw [itemsJson, h1]
    simp only [Res.bind]
    rw [comma_long hr, itemsJson_ok lib xs ts _ (by simp; omega) h2]
    simp [commas]

theorem fieldsJson_ok (lib : Lib) : ∀ (fs : List (Bytes × Node)) (ts : List (Bytes × Bytes)) (res : Bytes), 1 < res.length →
    List.Forall₂ (fun f t => f.1 = t.1 ∧ toJson lib f.2 = .ok t.2) fs ts →
    fieldsJson lib res fs = .ok (res ++ commas (ts.map fieldText))
  | [], _, res, _, .nil => by simp [fieldsJson, commas]
  | (k, x) :: fs, (k', t) :: ts, res, hr, .cons ⟨h0, h1⟩ h2 => by
    simp only at h0 h1
    subst h0
    rw [fieldsJson, h1]
    simp only [Res.bind, showV]
    rw [comma_long hr, fieldsJson_ok lib fs ts _ (by simp; omega) h2]
    simp [commas, fieldText]

theorem buildItems_ok : ∀ (js : List J) (ms : List Node), List.Forall₂ (fun j m => buildIndex j = .ok m) js ms → buildItems js = .ok ms
  | [], _, .nil => rfl
  | j :: js, m :: ms, .cons h1 h2 => by
    rw [buildItems, h1]
    simp only [Res.bind]
    rw [buildItems_ok js ms h2]

theorem buildFields_ok : ∀ (js : List (Bytes × J)) (ms acc : List (Bytes × Node)),
    List.Forall₂ (fun j m => j.1 = m.1 ∧ buildIndex j.2 = .ok m.2) js ms → ((acc ++ ms).map Prod.fst).Nodup →
    buildFields acc js = .ok (acc ++ ms)
  | [], _, acc, .nil, _ => by simp [buildFields]
  | (k, j) :: js, (k', m) :: ms, acc, .cons ⟨h0, h1⟩ h2, hd => by
    simp only at h0 h1
    subst h0
    rw [buildFields, h1]
    simp only [Res.bind]
    have hk : k ∉ acc.map Prod.fst := by
      rw [List.map_append, List.nodup_append] at hd
      intro hk
      exact hd.2.2 _ hk k (by simp) rfl
    have he : emplaceN k m acc = acc ++ [(k, m)] := by
      unfold emplaceN
      rw [Verif.DocPack.lookN_none _ _ hk]
    rw [he, buildFields_ok js ms _ h2 (by simpa using hd)]
    simp


theorem works_list {lib : Lib} {d : Nat} : ∀ xs : List Node, (∀ x ∈ xs, Works lib d x) → ∃ ts js ms,
    List.Forall₂ (fun x t => toJson lib x = .ok t) xs ts ∧ List.Forall₂ (fun t j => ∀ d', d ≤ d' → Reads (value lib d') t j) ts js ∧
    List.Forall₂ (fun j m => buildIndex j = .ok m) js ms ∧ List.Forall₂ Like xs ms
  | [], _ => ⟨[], [], [], .nil, .nil, .nil, .nil⟩
  | x :: xs, h => by
    obtain ⟨t, j, m, h1, h2, h3, h4⟩ := h x (by simp)
    obtain ⟨ts, js, ms, i1, i2, i3, i4⟩ := works_list xs fun y hy => h y (by simp [hy])
    exact ⟨t :: ts, j :: js, m :: ms, .cons h1 i1, .cons h2 i2, .cons h3 i3, .cons h4 i4⟩

theorem works_fields {lib : Lib} {d : Nat} : ∀ fs : List (Bytes × Node), (∀ p ∈ fs, Plain lib p.1) → (∀ p ∈ fs, Works lib d p.2) →
    ∃ (ts : List (Bytes × Bytes)) (js : List (Bytes × J)) (ms : List (Bytes × Node)),
    List.Forall₂ (fun f t => f.1 = t.1 ∧ toJson lib f.2 = .ok t.2) fs ts ∧
    List.Forall₂ (fun t j => ∀ d', d ≤ d' → FReads lib (value lib d') t j) ts js ∧
    List.Forall₂ (fun j m => j.1 = m.1 ∧ buildIndex j.2 = .ok m.2) js ms ∧
    List.Forall₂ (fun f m => f.1 = m.1 ∧ Like f.2 m.2) fs ms ∧ js.map Prod.fst = fs.map Prod.fst ∧ ms.map Prod.fst = fs.map Prod.fst
  | [], _, _ => ⟨[], [], [], .nil, .nil, .nil, .nil, rfl, rfl⟩
  | (k, x) :: fs, hk, h => by
    obtain ⟨t, j, m, h1, h2, h3, h4⟩ := h (k, x) (by simp)
    obtain ⟨ts, js, ms, i1, i2, i3, i4, i5, i6⟩ := works_fields fs (fun y hy => hk y (by simp [hy])) fun y hy => h y (by simp [hy])
    exact ⟨(k, t) :: ts, (k, j) :: js, (k, m) :: ms, .cons ⟨rfl, h1⟩ i1, .cons (fun d' hd => ⟨rfl, hk (k, x) (by simp), h2 d' hd⟩) i2,
      .cons ⟨rfl, h3⟩ i3, .cons ⟨rfl, h4⟩ i4, by simp [i5], by simp [i6]⟩

theorem like_list {xs ms : List Node} (h : List.Forall₂ Like xs ms) : Like (.arr xs) (.arr ms) := by
  refine .arr _ _ h.length_eq ?_
  induction h with
  | nil => intro i x y hx; simp at hx
  | cons h1 _ ih =>
    intro i x y hx hy
    cases i with
    | zero => simp at hx hy; subst hx hy; exact h1
    | succ i => exact ih i x y (by simpa using hx) (by simpa using hy)

theorem like_fields {fs ms : List (Bytes × Node)} (h : List.Forall₂ (fun f m => f.1 = m.1 ∧ Like f.2 m.2) fs ms) :
    Like (.obj fs) (.obj ms) := by
  have : ∀ k, (lookN fs k = none ↔ lookN ms k = none) ∧ ∀ x y, lookN fs k = some x → lookN ms k = some y → Like x y := by
    intro k
    induction h with
    | nil => simp [lookN]
    | @cons f m fs ms h1 _ ih =>
      obtain ⟨a, x⟩ := f
      obtain ⟨b, y⟩ := m
      obtain ⟨h0, h1⟩ := h1
      simp only at h0 h1
      subst h0
      simp only [lookN]
      by_cases hk : a = k
      · simp only [if_pos hk]
        refine ⟨by simp, fun x' y' hx hy => ?_⟩
        cases hx; cases hy; exact h1
      · simp only [if_neg hk]
        exact ih
  exact .obj _ _ (fun k => (this k).1) fun k => (this k).2

theorem value_array (lib : Lib) (d : Nat) (r : Bytes) (h : skip r = r) (h' : ∀ r', r ≠ 93 :: r') :
    value lib (d + 1) (91 :: r) = (elements (value lib d) r.length r).map fun x => (.array x.1, x.2) := by
  rw [value]
  simp only [h]

theorem value_object (lib : Lib) (d : Nat) (r : Bytes) (h : skip r = r) (h' : ∀ r', r ≠ 125 :: r') :
    value lib (d + 1) (123 :: r) = (members lib (value lib d) r.length r).map fun x => (.object x.1, x.2) := by
  rw [value]
  simp only [h]

theorem commas_length (ts : List Bytes) : ts.length ≤ (commas ts).length := by
  induction ts with
  | nil => simp
  | cons t ts ih =>
    have : commas (t :: ts) = 44 :: t ++ commas ts := rfl
    rw [this]; simp; omega

theorem Starts.pos {t : Bytes} (h : Starts t) : 1 ≤ t.length := by
  obtain ⟨c, r, rfl, _⟩ := h
  simp

theorem works_arr {lib : Lib} {d : Nat} (xs : List Node) (h : ∀ x ∈ xs, Works lib d x) : Works lib (d + 1) (.arr xs) := by
  obtain ⟨ts, js, ms, i1, i2, i3, i4⟩ := works_list xs h
  refine ⟨91 :: (match ts with | [] => [] | t :: ts => t ++ commas ts) ++ [93], .array js, .arr ms, ?_, ?_, ?_, like_list i4⟩
  · cases i1 with
    | nil => simp [toJson, itemsJson, Res.bind]
    | @cons x t xs ts h1 h2 =>
      rw [toJson, itemsJson, h1]
      simp only [Res.bind]
      have hp : 1 ≤ t.length := by
        cases i2 with
        | cons a _ => exact (a d (by omega)).1.pos
      have e : comma [91] = [91] := rfl
      rw [e, itemsJson_ok lib xs ts _ (by simp; omega) h2]
      simp
  · intro d' hd
    obtain ⟨d', rfl⟩ : ∃ e, d' = e + 1 := ⟨d' - 1, by omega⟩
    refine ⟨⟨91, _, rfl, by decide⟩, fun rest hr => ?_⟩
    cases i2 with
    | nil => rfl
    | @cons t j ts js a b =>
      have ha := a d' (by omega)
      have hb : List.Forall₂ (Reads (value lib d')) ts js := b.imp fun _ _ q => q d' (by omega)
      have e : 91 :: (t ++ commas ts) ++ [93] ++ rest = 91 :: (t ++ (commas ts ++ 93 :: rest)) := by simp
      simp only
      rw [e, value_array _ _ _ (ha.1.skip _), elements_ok rest ts js t j _ ha hb]
      · rfl
      · have := commas_length ts
        simp
        omega
      · obtain ⟨c, r, rfl, _, _, _, _, hc, _⟩ := ha.1
        intro r' e
        simp at e
        exact hc e.1
  · rw [buildIndex, buildItems_ok js ms i3]
    rfl

theorem works_obj {lib : Lib} {d : Nat} (fs : List (Bytes × Node)) (hn : (fs.map Prod.fst).Nodup) (hk : ∀ p ∈ fs, Plain lib p.1)
    (h : ∀ p ∈ fs, Works lib d p.2) : Works lib (d + 1) (.obj fs) := by
  obtain ⟨ts, js, ms, i1, i2, i3, i4, i5, i6⟩ := works_fields fs hk h
  refine ⟨123 :: (match ts with | [] => [] | t :: ts => fieldText t ++ commas (ts.map fieldText)) ++ [125], .object js, .obj ms, ?_, ?_, ?_,
    like_fields i4⟩
  · cases i1 with
    | nil => simp [toJson, fieldsJson, Res.bind]
    | @cons x t xs ts h1 h2 =>
      obtain ⟨k, x⟩ := x
      obtain ⟨k', t⟩ := t
      obtain ⟨h0, h1⟩ := h1
      simp only at h0 h1
      subst h0
      rw [toJson, fieldsJson, h1]
      simp only [Res.bind, showV]
      have e : comma [123] = [123] := rfl
      rw [e, fieldsJson_ok lib xs ts _ (by simp) h2]
      simp [fieldText]
  · intro d' hd
    obtain ⟨d', rfl⟩ : ∃ e, d' = e + 1 := ⟨d' - 1, by omega⟩
    refine ⟨⟨123, _, rfl, by decide⟩, fun rest hr => ?_⟩
    cases i2 with
    | nil => rfl
    | @cons t j ts js a b =>
      have ha := a d' (by omega)
      have hb : List.Forall₂ (FReads lib (value lib d')) ts js := b.imp fun _ _ q => q d' (by omega)
      have e : 123 :: (fieldText t ++ commas (ts.map fieldText)) ++ [125] ++ rest =
        123 :: (fieldText t ++ (commas (ts.map fieldText) ++ 125 :: rest)) := by simp
      simp only
      rw [e, value_object, members_ok rest ts js t j _ ha hb _ (by rw [i5]; exact hn)]
      · rfl
      · have := commas_length (ts.map fieldText)
        simp at this ⊢
        omega
      · rfl
      · intro r' e
        simp [fieldText] at e
  · rw [buildIndex, buildFields_ok js ms [] i3 (by simpa [i6] using hn)]
    rfl

theorem works {lib : Lib} (hh : Honest lib) {n : Node} (hv : Valid n) : ∀ d, Every (Shown lib) n → Names lib n → Depth d n → Works lib d n := by
  induction hv with
  | leaf v hv hs =>
    intro d he _ _
    cases he with
    | leaf _ he =>
      obtain ⟨t, j, w, h1, h2, h3, h4⟩ := (leaf_works hh hv hs he).works
      exact ⟨t, j, .leaf w, by rw [toJson, h1], fun d' _ => h2 d', h3, .leaf _ _ h4⟩
  | arr xs hl h ih =>
    intro d he hn hd
    cases hd with
    | arr d _ hd =>
      cases he with
      | arr _ he =>
        cases hn with
        | arr _ hn => exact works_arr xs fun x hx => ih x hx d (he x hx) (hn x hx) (hd x hx)
  | obj fs hnd hl hk h ih =>
    intro d he hn hd
    cases hd with
    | obj d _ hd =>
      cases he with
      | obj _ he =>
        cases hn with
        | obj _ hkk hn => exact works_obj fs hnd hkk fun x hx => ih x hx d (he x hx) (hn x hx) (hd x hx)

theorem text_back {lib : Lib} (hh : Honest lib) (fs : List (Bytes × Node)) (hv : Valid (.obj fs)) (he : Every (Shown lib) (.obj fs))
    (hn : Names lib (.obj fs)) (hd : Depth 32 (.obj fs)) :
    ∃ t d, toJson lib (.obj fs) = .ok t ∧ fromJson lib t = .ok d ∧ ∀ l, Alike (seen (.obj fs) l) (seen d l) := by
  obtain ⟨t, j, m, h1, h2, h3, h4⟩ := works hh hv 32 he hn hd
  refine ⟨t, m, h1, ?_, h4.alike⟩
  obtain ⟨hs, hr⟩ := h2 32 (by omega)
  have hp : parse lib t = some j := by
    unfold parse
    have e := hs.skip []
    rw [List.append_nil] at e
    have e' := hr [] (.inl rfl)
    rw [List.append_nil] at e'
    rw [e, e']
    rfl
  unfold fromJson
  rw [hp]
  cases h4 with
  | obj _ gs _ _ =>
    cases j with
    | object js => exact h3
    | array js => 
      simp only [buildIndex] at h3
      cases h : buildItems js <;> simp [h, Res.bind] at h3
    | null => simp only [buildIndex] at h3; cases h : Query.put (primitive .null) <;> simp [h, Res.bind] at h3
    | bool b => simp only [buildIndex] at h3; cases h : Query.put (primitive (.bool b)) <;> simp [h, Res.bind] at h3
    | int64 b => simp only [buildIndex] at h3; cases h : Query.put (primitive (.int64 b)) <;> simp [h, Res.bind] at h3
    | uint64 b => simp only [buildIndex] at h3; cases h : Query.put (primitive (.uint64 b)) <;> simp [h, Res.bind] at h3
    | double b => simp only [buildIndex] at h3; cases h : Query.put (primitive (.double b)) <;> simp [h, Res.bind] at h3
    | string b => simp only [buildIndex] at h3; cases h : Query.put (primitive (.string b)) <;> simp [h, Res.bind] at h3

end Verif.Text
