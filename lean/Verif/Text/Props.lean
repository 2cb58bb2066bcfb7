import Verif.Text.Lemmas
/-!
C95: a document written as JSON text and read again.
-/
namespace Verif.Text

open Verif.Num Verif.PhysKey Verif.DocVal Verif.Json Verif.DocPack

/-- The full claim: the text of every document is read as a document with the same things in the same places (numbers by
their value), whatever a C library and a JSON reader that keep their promises print and read. -/
def C95_claim : Prop :=
  ∀ lib : Lib, Honest lib → ∀ fs : List (Bytes × Node), Valid (.obj fs) →
    ∃ t d, toJson lib (.obj fs) = .ok t ∧ fromJson lib t = .ok d ∧ ∀ l, Alike (seen (.obj fs) l) (seen d l)

/-- So it is if the names and texts have no quotes, backslashes and control characters, the values are `Shown` and there are
at most 32 containers within each other. -/
theorem C95_text_partial (lib : Lib) (hh : Honest lib) (fs : List (Bytes × Node)) (hv : Valid (.obj fs))
    (hs : Every (Shown lib) (.obj fs)) (hn : Names lib (.obj fs)) (hd : Depth 32 (.obj fs)) :
    ∃ t d, toJson lib (.obj fs) = .ok t ∧ fromJson lib t = .ok d ∧ ∀ l, Alike (seen (.obj fs) l) (seen d l) :=
  text_back hh fs hv hs hn hd

/-! ### a library that keeps its promises -/

/-- A library for the cases: a `double` is printed as its bits and `e0`, and read accordingly. -/
def toy : Lib where
  fmt32 _ := [48]
  fmt64 b := showNat b.toNat ++ [101, 48]
  double t := UInt64.ofNat (natOf (t.takeWhile isDigit))
  utf8 _ := true
  wide := lowWide

theorem toy_text (n : Nat) : (showNat n ++ [101, 48]).takeWhile isDigit = showNat n ∧
    (showNat n ++ [101, 48]).dropWhile isDigit = [101, 48] := by
  have hd := showNat_digits n
  simp only [isDigits, Bool.and_eq_true, List.all_eq_true] at hd
  constructor
  · rw [List.takeWhile_append_of_pos hd.2]; exact List.append_nil _
  · rw [List.dropWhile_append_of_pos hd.2]; rfl

theorem toy_honest : Honest toy where
  exact b z h := by
    obtain ⟨h1, h2⟩ := toy_text b.toNat
    obtain ⟨c, r, hc, h0⟩ := showNat_head b.toNat
    have hu : isUnsigned (showNat b.toNat ++ [101, 48]) = true := by
      have := showNat_unsigned b.toNat
      have hd := showNat_digits b.toNat
      simp only [isDigits, Bool.and_eq_true, List.all_eq_true] at hd
      have h3 : (showNat b.toNat).takeWhile isDigit = showNat b.toNat := List.takeWhile_eq_self_iff.mpr hd.2
      simp only [isUnsigned, h3, Bool.and_eq_true] at this
      simp only [isUnsigned, h1, h2, Bool.and_eq_true]
      exact ⟨this.1, rfl⟩
    have h45 := isUnsigned_not45 hu
    refine ⟨?_, ?_⟩
    · show isNumber (showNat b.toNat ++ [101, 48]) = true
      rw [isNumber_pos h45, hu]
    · have : intOf (toy.fmt64 b) = none := by
        show intOf (showNat b.toNat ++ [101, 48]) = none
        rw [intOf_pos h45, if_neg]
        intro hh
        simp only [isDigits, Bool.and_eq_true, List.all_eq_true] at hh
        have := hh.2 101 (by simp)
        revert this; decide
      rw [this]
      show decode64 (UInt64.ofNat (natOf ((showNat b.toNat ++ [101, 48]).takeWhile isDigit))) = .fin z
      rw [h1, natOf_showNat, UInt64.ofNat_toNat, h]
  ascii _ _ := rfl

/-! ### where the text is not read back -/

/-- `{"a": v}`. -/
def one' (v : V) : List (Bytes × Node) := [([97], .leaf v)]

theorem one'_valid {v : V} (hv : v.valid) (hs : ∀ s, v = .str s → s.length < 2 ^ 31) : Valid (.obj (one' v)) := by
  refine .obj _ (by simp [one']) (by simp [one']) (by simp [one']) fun p hp => ?_
  simp only [one', List.mem_cons, List.not_mem_nil, or_false] at hp
  subst hp
  exact .leaf _ hv hs

theorem value_one (lib : Lib) (hh : Honest lib) (r : Bytes) :
    value lib 32 (123 :: 34 :: 97 :: 34 :: 58 :: r) =
      (members lib (value lib 31) (r.length + 4) (34 :: 97 :: 34 :: 58 :: r)).map fun x => (.object x.1, x.2) :=
  value_object lib 31 _ rfl (by simp)

theorem string_a (lib : Lib) (hh : Honest lib) (r : Bytes) : string lib (97 :: 34 :: r) = some ([97], r) :=
  string_plain (s := [97]) ⟨hh.ascii _ (by decide), by decide⟩ r

/-- What follows `{"a":` is no value. -/
theorem one_none (lib : Lib) (hh : Honest lib) (r : Bytes) (h : value lib 31 (skip r) = none) :
    fromJson lib (123 :: 34 :: 97 :: 34 :: 58 :: r) = .throws := by
  have : parse lib (123 :: 34 :: 97 :: 34 :: 58 :: r) = none := by
    unfold parse
    rw [show skip (123 :: 34 :: 97 :: 34 :: 58 :: r) = 123 :: 34 :: 97 :: 34 :: 58 :: r from rfl, value_one lib hh]
    unfold members
    rw [skip_quote]
    simp only
    rw [string_a lib hh]
    simp only
    rw [skip_colon]
    simp only
    rw [h]
    rfl
  unfold fromJson
  rw [this]

/-- What follows `{"a":` is a value, but not the end of the object. -/
theorem one_more (lib : Lib) (hh : Honest lib) (r : Bytes) {j : J} {c : UInt8} {s : Bytes} (h : value lib 31 (skip r) = some (j, c :: s))
    (hs : skip (c :: s) = c :: s) (h1 : c ≠ 44) (h2 : c ≠ 125) : fromJson lib (123 :: 34 :: 97 :: 34 :: 58 :: r) = .throws := by
  have : parse lib (123 :: 34 :: 97 :: 34 :: 58 :: r) = none := by
    unfold parse
    rw [show skip (123 :: 34 :: 97 :: 34 :: 58 :: r) = 123 :: 34 :: 97 :: 34 :: 58 :: r from rfl, value_one lib hh]
    unfold members
    rw [skip_quote]
    simp only
    rw [string_a lib hh]
    simp only
    rw [skip_colon]
    simp only
    rw [h]
    simp only [hs]
    split <;> simp_all
  unfold fromJson
  rw [this]

/-- `{"a":`, a value and `}`. -/
theorem one_some (lib : Lib) (hh : Honest lib) (r : Bytes) {j : J} (h : value lib 31 (skip r) = some (j, [125])) :
    fromJson lib (123 :: 34 :: 97 :: 34 :: 58 :: r) = (buildIndex j).bind fun n => .ok (.obj [([97], n)]) := by
  have : parse lib (123 :: 34 :: 97 :: 34 :: 58 :: r) = some (.object [([97], j)]) := by
    unfold parse
    rw [show skip (123 :: 34 :: 97 :: 34 :: 58 :: r) = 123 :: 34 :: 97 :: 34 :: 58 :: r from rfl, value_one lib hh]
    unfold members
    rw [skip_quote]
    simp only
    rw [string_a lib hh]
    simp only
    rw [skip_colon]
    simp only
    rw [h]
    rfl
  unfold fromJson
  rw [this]
  simp only [buildIndex, buildFields]
  cases buildIndex j <;> rfl

/-- `{"a": "x\"y"}` is written with a bare quote in the text, which no reader accepts. -/
theorem C95_quote_fails (lib : Lib) (hh : Honest lib) :
    toJson lib (.obj (one' (.str [120, 34, 121]))) = .ok [123, 34, 97, 34, 58, 34, 120, 34, 121, 34, 125] ∧
    fromJson lib [123, 34, 97, 34, 58, 34, 120, 34, 121, 34, 125] = .throws := by
  refine ⟨rfl, ?_⟩
  have h2 : Plain lib [120] := ⟨hh.ascii _ (by decide), by decide⟩
  refine one_more lib hh _ (j := .string [120]) (c := 121) (s := [34, 125]) ?_ rfl (by decide) (by decide)
  rw [skip_quote, value_string]
  have := string_plain h2 [121, 34, 125]
  simp only [List.cons_append, List.nil_append] at this
  rw [this]
  rfl

/-- `C:\new` is read as `C:`, a line feed and `ew`, without an error. -/
theorem C95_backslash_fails (lib : Lib) (hh : Honest lib) :
    toJson lib (.obj (one' (.str [67, 58, 92, 110, 101, 119]))) =
      .ok [123, 34, 97, 34, 58, 34, 67, 58, 92, 110, 101, 119, 34, 125] ∧
    fromJson lib [123, 34, 97, 34, 58, 34, 67, 58, 92, 110, 101, 119, 34, 125] = .ok (.obj (one' (.str [67, 58, 10, 101, 119]))) := by
  refine ⟨rfl, ?_⟩
  have h2 : lib.utf8 [67, 58, 10, 101, 119] = true := hh.ascii _ (by decide)
  have h3 : Query.put (.str [67, 58, 10, 101, 119]) = .ok (.str [67, 58, 10, 101, 119]) := put_str _ (by decide)
  rw [one_some lib hh _ (j := .string [67, 58, 10, 101, 119])]
  · simp only [buildIndex, primitive, h3]
    rfl
  · rw [skip_quote, value_string]
    simp [string, text, escaped, h2]

/-- A text with a tabulator, or any other control character, is refused. -/
theorem C95_control_fails (lib : Lib) (hh : Honest lib) :
    toJson lib (.obj (one' (.str [120, 9, 121]))) = .ok [123, 34, 97, 34, 58, 34, 120, 9, 121, 34, 125] ∧
    fromJson lib [123, 34, 97, 34, 58, 34, 120, 9, 121, 34, 125] = .throws := by
  refine ⟨rfl, ?_⟩
  refine one_none lib hh _ ?_
  rw [skip_quote, value_string]
  simp [string, text]

/-- A 128-bit number is written as `hugeint`. -/
theorem C95_hugeint_fails (lib : Lib) (hh : Honest lib) (n : Int) :
    toJson lib (.obj (one' (.big n))) = .ok [123, 34, 97, 34, 58, 104, 117, 103, 101, 105, 110, 116, 125] ∧
    fromJson lib [123, 34, 97, 34, 58, 104, 117, 103, 101, 105, 110, 116, 125] = .throws := by
  refine ⟨rfl, ?_⟩
  exact one_none lib hh _ rfl

/-- To print a 64-bit integer is undefined by the standard of C, whichever it is: `{"a": 1}` too. -/
theorem C95_int64_is_ub (lib : Lib) (h : lib.wide = standardWide) (n : Int) :
    toJson lib (.obj (one' (.int .i64 n))) = .ub ∧ toJson lib (.obj (one' (.int .u64 n))) = .ub := by
  simp [toJson, fieldsJson, one', showV, showITy, h, standardWide, Res.bind, ITy.bits]

/-- On usual processors 5000000000 is printed, and read again, as 705032704. -/
theorem C95_int64_fails (lib : Lib) (hh : Honest lib) (h : lib.wide = lowWide) :
    toJson lib (.obj (one' (.int .i64 5000000000))) = .ok [123, 34, 97, 34, 58, 55, 48, 53, 48, 51, 50, 55, 48, 52, 125] ∧
    fromJson lib [123, 34, 97, 34, 58, 55, 48, 53, 48, 51, 50, 55, 48, 52, 125] = .ok (.obj (one' (.int .i64 705032704))) := by
  refine ⟨?_, ?_⟩
  · simp [toJson, fieldsJson, one', showV, showITy, h, lowWide, Res.bind, ITy.bits, ITy.signed, showInt, comma]
    rw [show showNat 705032704 = [55, 48, 53, 48, 51, 50, 55, 48, 52] from by (iterate 9 rw [showNat]); rfl]
    rfl
  have h3 : Query.put (.int .i64 705032704) = .ok (.int .i64 705032704) := put_i64' _ (by decide)
  have h4 := (reads_number lib 31 (t := [55, 48, 53, 48, 51, 50, 55, 48, 52]) (by decide)).2 [125] (.inr ⟨125, [], rfl, by decide⟩)
  have h5 : intOf [55, 48, 53, 48, 51, 50, 55, 48, 52] = some 705032704 := by decide +kernel
  rw [number, h5] at h4
  simp only at h4
  rw [if_pos (by decide)] at h4
  rw [one_some lib hh [55, 48, 53, 48, 51, 50, 55, 48, 52, 125] h4]
  simp only [buildIndex, primitive, h3]
  rfl

/-- The least `double` has 24 characters, which with the zero byte is one more than the buffer holds. -/
theorem C95_least_double_is_ub (lib : Lib)
    (h : lib.fmt64 0xFFEFFFFFFFFFFFFF = [45, 49, 46, 55, 57, 55, 54, 57, 51, 49, 51, 52, 56, 54, 50, 51, 49, 53, 55, 101, 43, 51, 48, 56]) :
    toJson lib (.obj (one' (.double 0xFFEFFFFFFFFFFFFF))) = .ub := by
  simp [toJson, fieldsJson, one', showV, showFloat, h, Res.bind]

/-- `nan` is not JSON. -/
theorem C95_nan_fails (lib : Lib) (hh : Honest lib) (b : UInt64) (h : lib.fmt64 b = [110, 97, 110]) :
    toJson lib (.obj (one' (.double b))) = .ok [123, 34, 97, 34, 58, 110, 97, 110, 125] ∧
    fromJson lib [123, 34, 97, 34, 58, 110, 97, 110, 125] = .throws := by
  refine ⟨by simp [toJson, fieldsJson, one', showV, showFloat, h, Res.bind, comma], ?_⟩
  exact one_none lib hh _ rfl

/-- The `float` 0.1 is printed with 9 digits and read as a `double`, which is another number. -/
theorem C95_float_fails (lib : Lib) (hh : Honest lib)
    (h : lib.fmt32 0x3DCCCCCD = [48, 46, 49, 48, 48, 48, 48, 48, 48, 48, 49])
    (hd : lib.double [48, 46, 49, 48, 48, 48, 48, 48, 48, 48, 49] = 0x3fb999999de51c94) :
    toJson lib (.obj (one' (.float 0x3DCCCCCD))) = .ok [123, 34, 97, 34, 58, 48, 46, 49, 48, 48, 48, 48, 48, 48, 48, 49, 125] ∧
    fromJson lib [123, 34, 97, 34, 58, 48, 46, 49, 48, 48, 48, 48, 48, 48, 48, 49, 125] = .ok (.obj (one' (.double 0x3fb999999de51c94))) ∧
    ¬ SameV (.float 0x3DCCCCCD) (.double 0x3fb999999de51c94) := by
  refine ⟨by simp [toJson, fieldsJson, one', showV, showFloat, h, Res.bind, comma], ?_, ?_⟩
  · rw [one_some lib hh _ (j := .double 0x3fb999999de51c94)]
    · simp only [buildIndex, primitive, put_double]
      rfl
    · rw [← hd]
      rfl
  · rintro (h | ⟨x, h1, h2⟩)
    · cases h
    · simp only [num] at h1 h2
      rw [← h1] at h2
      revert h2
      decide +kernel

/-- `n` arrays within each other. -/
def deep : Nat → Node
  | 0 => .arr []
  | n + 1 => .arr [deep n]

theorem deep_valid (n : Nat) : Valid (deep n) := by
  induction n with
  | zero => exact .arr _ (by decide) (by simp)
  | succ n ih => exact .arr _ (by simp) (by simpa using ih)

/-- 32 arrays within a document are one container too many. -/
theorem C95_depth_fails (lib : Lib) (hh : Honest lib) :
    ∃ t, toJson lib (.obj [([97], deep 31)]) = .ok t ∧ fromJson lib t = .throws := by
  refine ⟨123 :: 34 :: 97 :: 34 :: 58 :: (List.replicate 32 91 ++ List.replicate 32 93 ++ [125]), rfl, ?_⟩
  exact one_none lib hh _ rfl

/-- The full claim fails. -/
theorem C95_fails : ¬ C95_claim := by
  intro h
  obtain ⟨t, d, h1, h2, _⟩ := h toy toy_honest (one' (.str [120, 34, 121])) (one'_valid trivial (by rintro s ⟨⟩; decide))
  obtain ⟨e1, e2⟩ := C95_quote_fails toy toy_honest
  rw [e1] at h1
  injection h1 with h1
  rw [← h1, e2] at h2
  cases h2

/-! ### a case -/

/-- `{"a": -7, "b": [0.5, null, true, "x"], "c": {"d": 7, "e": {}}}`. -/
def sample : List (Bytes × Node) :=
  [([97], .leaf (.int .i32 (-7))), ([98], .arr [.leaf (.double 0x3FE0000000000000), .leaf .na, .leaf (.bool true), .leaf (.str [120])]),
   ([99], .obj [([100], .leaf (.int .i64 7)), ([101], .obj [])])]

theorem sample_valid : Valid (.obj sample) := by
  refine .obj _ (by decide) (by decide) (by decide) fun p hp => ?_
  simp only [sample, List.mem_cons, List.not_mem_nil, or_false] at hp
  rcases hp with rfl | rfl | rfl
  · exact .leaf _ (by simp [V.valid]; decide) (by rintro s ⟨⟩)
  · refine .arr _ (by decide) fun x hx => ?_
    simp only [List.mem_cons, List.not_mem_nil, or_false] at hx
    rcases hx with rfl | rfl | rfl | rfl
    · exact .leaf _ trivial (by rintro s ⟨⟩)
    · exact .leaf _ trivial (by rintro s ⟨⟩)
    · exact .leaf _ trivial (by rintro s ⟨⟩)
    · exact .leaf _ trivial (by rintro s ⟨⟩; decide)
  · refine .obj _ (by decide) (by decide) (by decide) fun p hp => ?_
    simp only [List.mem_cons, List.not_mem_nil, or_false] at hp
    rcases hp with rfl | rfl
    · exact .leaf _ (by simp [V.valid]; decide) (by rintro s ⟨⟩)
    · exact .obj _ (by decide) (by decide) (by decide) (by simp)

theorem sample_shown : Every (Shown toy) (.obj sample) := by
  have hl : (toy.fmt64 0x3FE0000000000000).length ≤ 23 := by
    have : showNat (0x3FE0000000000000 : UInt64).toNat = [52, 54, 48, 50, 54, 55, 56, 56, 49, 57, 49, 55, 50, 54, 52, 54, 57, 49, 50] := by
      iterate 19 rw [showNat]
      rfl
    show (showNat (0x3FE0000000000000 : UInt64).toNat ++ [101, 48]).length ≤ 23
    rw [this]; decide
  refine .obj _ fun p hp => ?_
  simp only [sample, List.mem_cons, List.not_mem_nil, or_false] at hp
  rcases hp with rfl | rfl | rfl
  · exact .leaf _ (by simp [Shown, ITy.bits])
  · refine .arr _ fun x hx => ?_
    simp only [List.mem_cons, List.not_mem_nil, or_false] at hx
    rcases hx with rfl | rfl | rfl | rfl
    · exact .leaf _ ⟨hl, 2 ^ 1073, by decide +kernel⟩
    · exact .leaf _ trivial
    · exact .leaf _ trivial
    · exact .leaf _ ⟨rfl, by decide⟩
  · refine .obj _ fun p hp => ?_
    simp only [List.mem_cons, List.not_mem_nil, or_false] at hp
    rcases hp with rfl | rfl
    · exact .leaf _ fun _ => by decide
    · exact .obj _ (by simp)

theorem sample_names : Names toy (.obj sample) := by
  refine .obj _ (by simp [sample, Plain, toy]) fun p hp => ?_
  simp only [sample, List.mem_cons, List.not_mem_nil, or_false] at hp
  rcases hp with rfl | rfl | rfl
  · exact .leaf _
  · refine .arr _ fun x hx => ?_
    simp only [List.mem_cons, List.not_mem_nil, or_false] at hx
    rcases hx with rfl | rfl | rfl | rfl <;> exact .leaf _
  · refine .obj _ (by simp [Plain, toy]) fun p hp => ?_
    simp only [List.mem_cons, List.not_mem_nil, or_false] at hp
    rcases hp with rfl | rfl
    · exact .leaf _
    · exact .obj _ (by simp) (by simp)

theorem sample_depth : Depth 32 (.obj sample) := by
  refine .obj 31 _ fun p hp => ?_
  simp only [sample, List.mem_cons, List.not_mem_nil, or_false] at hp
  rcases hp with rfl | rfl | rfl
  · exact .leaf _ _
  · refine .arr 30 _ fun x hx => ?_
    simp only [List.mem_cons, List.not_mem_nil, or_false] at hx
    rcases hx with rfl | rfl | rfl | rfl <;> exact .leaf _ _
  · refine .obj 30 _ fun p hp => ?_
    simp only [List.mem_cons, List.not_mem_nil, or_false] at hp
    rcases hp with rfl | rfl
    · exact .leaf _ _
    · exact .obj 29 _ (by simp)

example : ∃ t d, toJson toy (.obj sample) = .ok t ∧ fromJson toy t = .ok d ∧ ∀ l, Alike (seen (.obj sample) l) (seen d l) :=
  C95_text_partial toy toy_honest sample sample_valid sample_shown sample_names sample_depth

end Verif.Text
