import Verif.Lex.Words
/-! What the scanner makes of each kind of token. -/
namespace Verif.Lex
open Verif
open Verif.Text (showNat natOf isDigit isDigits showNat_digits natOf_showNat)

theorem all_bytes {P : UInt8 → Prop} (h : ∀ n, n < 256 → P (UInt8.ofNat n)) (c : UInt8) : P c := by
  have := h c.toNat (UInt8.toNat_lt c)
  simpa using this

theorem lex_some {c : UInt8} {r r' : Bytes} {t : Tok} (h : step c r = .ok (some t, r')) : lex (c :: r) = (lex r').map' (t :: ·) := by
  rw [lex_cons, h, Res.bind_ok]; rfl

theorem lex_skip {c : UInt8} {r r' : Bytes} (h : step c r = .ok (none, r')) : lex (c :: r) = lex r' := by
  rw [lex_cons, h, Res.bind_ok]
  cases lex r' <;> rfl

theorem lex_throws {c : UInt8} {r : Bytes} (h : step c r = .throws) : lex (c :: r) = .throws := by
  rw [lex_cons, h]; rfl

/-! ### Blanks and comments -/

theorem step_space {c : UInt8} (r : Bytes) (h : isSpace c = true) : step c r = .ok (none, r) := by
  unfold step; rw [if_pos h]

theorem step_dash (r : Bytes) : step 45 (45 :: r) = .ok (none, (45 :: r).dropWhile fun c => !isNewline c) := by
  unfold step
  exact (if_neg (by decide)).trans (if_pos ⟨rfl, rfl⟩)

theorem step_comment (r : Bytes) : step 47 (42 :: r) = (comment 0 r).map' fun r' => (none, r') := by
  unfold step
  exact (if_neg (by decide)).trans ((if_neg (fun h => absurd h.1 (by decide))).trans (if_pos ⟨rfl, rfl⟩))

theorem lex_blank {w : Bytes} (h : Blank w) (r : Bytes) : lex (w ++ r) = lex r := by
  induction h with
  | nil => rfl
  | space c w hc _ ih =>
    rw [List.cons_append, lex_skip (step_space _ ?_), ih]
    simp only [List.mem_cons, List.not_mem_nil, or_false] at hc
    rcases hc with rfl | rfl | rfl | rfl | rfl <;> decide
  | comment s n w hs hn _ ih =>
    have e : [45, 45] ++ s ++ [n] ++ w ++ r = 45 :: 45 :: (s ++ n :: (w ++ r)) := by simp
    rw [e, lex_skip (step_dash _)]
    have hn' : isNewline n = true := (newline_iff n).mpr hn
    have hd : (45 :: (s ++ n :: (w ++ r))).dropWhile (fun c => !isNewline c) = n :: (w ++ r) := by
      rw [List.dropWhile_cons_of_pos (by decide), List.dropWhile_append_of_pos]
      · rw [List.dropWhile_cons_of_neg (by simp [hn'])]
      · intro c hc
        have := hs c hc
        have : ¬ isNewline c = true := by rw [newline_iff]; tauto
        simpa using this
    rw [hd, lex_skip (step_space _ (by simp [isSpace, hn'])), ih]

/-! ### Quoted texts -/

theorem step_quote (r : Bytes) : step 39 r = (quoted r).map' fun p => (some (.sconst p.1), p.2) := by
  unfold step
  exact (if_neg (by decide)).trans ((if_neg (fun h => absurd h.1 (by decide))).trans
    ((if_neg (fun h => absurd h.1 (by decide))).trans (if_pos rfl)))

theorem lex_text (s : Bytes) {r : Bytes} (h1 : r.head? ≠ some 39) (h2 : ¬ Continues r) :
    lex (quoteText s ++ r) = (lex r).map' (.sconst s :: ·) := by
  have e : quoteText s ++ r = 39 :: (double 39 s ++ 39 :: r) := by simp [quoteText]
  rw [e]
  apply lex_some
  rw [step_quote, quoted_double, quoted_stop h1 (cont_none h2)]
  simp

/-- Two texts with blanks between them, a newline among these, are one text. -/
theorem lex_joined (s t w : Bytes) {r : Bytes} (hw : Blank w) (hn : ∃ c ∈ w, c = 10 ∨ c = 13) (h1 : r.head? ≠ some 39) (h2 : ¬ Continues r) :
    lex (quoteText s ++ w ++ quoteText t ++ r) = (lex r).map' (.sconst (s ++ t) :: ·) := by
  have e : quoteText s ++ w ++ quoteText t ++ r = 39 :: (double 39 s ++ 39 :: (w ++ 39 :: (double 39 t ++ 39 :: r))) := by
    simp [quoteText]
  rw [e]
  apply lex_some
  have hne : w ≠ [] := by rintro rfl; simp at hn
  rw [step_quote, quoted_double, quoted_go (head_blank hw hne) (cont_blank hw _ false (.inr hn)), quoted_double,
    quoted_stop h1 (cont_none h2)]
  simp

theorem quoted_open (s : Bytes) : quoted (double 39 s) = .throws := by
  have := quoted_double s []
  rw [List.append_nil] at this
  rw [this, quoted]; rfl

/-! ### Texts with escapes -/

theorem step_e (r : Bytes) : step 69 (39 :: r) = (equoted r).map' fun p => (some (.sconst (cstr p.1)), p.2) := by
  unfold step
  have n : ∀ {p q : Prop}, ¬ p → ¬ (p ∧ q) := fun h hq => h hq.1
  exact (if_neg (by decide)).trans <| (if_neg (n (by decide))).trans <| (if_neg (n (by decide))).trans <|
    (if_neg (by decide)).trans <| (if_neg (n (by decide))).trans <| (if_neg (n (by decide))).trans <|
    (if_neg (n (by decide))).trans (if_pos ⟨.inr rfl, rfl⟩)

theorem cstr_self {s : Bytes} (h : ∀ c ∈ s, c ≠ 0) : cstr s = s := by
  unfold cstr
  exact List.takeWhile_eq_self_iff.mpr fun c hc => by simpa using h c hc

theorem lex_escaped (s : Bytes) (h0 : ∀ c ∈ s, c ≠ 0) {r : Bytes} (h1 : r.head? ≠ some 39) (h2 : ¬ Continues r) :
    lex (escapeText s ++ r) = (lex r).map' (.sconst s :: ·) := by
  have e : escapeText s ++ r = 69 :: 39 :: ((s.flatMap fun c => if c = 39 ∨ c = 92 then [c, c] else [c]) ++ 39 :: r) := by
    simp [escapeText]
  rw [e]
  apply lex_some
  rw [step_e, equoted_escape, equoted_stop h1 (cont_none h2)]
  simp [cstr_self h0]

/-! ### Bits -/

theorem bits_stop {r : Bytes} (h2 : cont false false r = none) : bits (39 :: r) = .ok ([], r) := by
  rw [bits]
  simp only [if_true]
  split
  · rename_i r' h; rw [h2] at h; cases h
  · rfl

theorem bits_eq {r : Bytes} (h2 : cont false false r = none) : ∀ s : Bytes, (∀ c ∈ s, c ≠ 39) → bits (s ++ 39 :: r) = .ok (s, r)
  | [], _ => bits_stop h2
  | c :: s, h => by
    rw [List.cons_append, bits, if_neg (h c (by simp)), bits_eq h2 s fun d hd => h d (by simp [hd])]; rfl

theorem step_b (r : Bytes) : step 98 (39 :: r) = (bits r).map' fun p => (some (.bconst (98 :: p.1)), p.2) := by
  unfold step
  have n : ∀ {p q : Prop}, ¬ p → ¬ (p ∧ q) := fun h hq => h hq.1
  exact (if_neg (by decide)).trans <| (if_neg (n (by decide))).trans <| (if_neg (n (by decide))).trans <|
    (if_neg (by decide)).trans (if_pos ⟨.inl rfl, rfl⟩)

theorem step_x (r : Bytes) : step 120 (39 :: r) = (bits r).map' fun p => (some (.xconst (120 :: p.1)), p.2) := by
  unfold step
  have n : ∀ {p q : Prop}, ¬ p → ¬ (p ∧ q) := fun h hq => h hq.1
  exact (if_neg (by decide)).trans <| (if_neg (n (by decide))).trans <| (if_neg (n (by decide))).trans <|
    (if_neg (by decide)).trans <| (if_neg (n (by decide))).trans (if_pos ⟨.inl rfl, rfl⟩)

theorem lex_bits (s : Bytes) (hs : ∀ c ∈ s, c ≠ 39) {r : Bytes} (h2 : ¬ Continues r) :
    lex ([98, 39] ++ s ++ [39] ++ r) = (lex r).map' (.bconst (98 :: s) :: ·) := by
  have e : [98, 39] ++ s ++ [39] ++ r = 98 :: 39 :: (s ++ 39 :: r) := by simp
  rw [e]
  apply lex_some
  rw [step_b, bits_eq (cont_none h2) s hs]; rfl

theorem lex_hex (s : Bytes) (hs : ∀ c ∈ s, c ≠ 39) {r : Bytes} (h2 : ¬ Continues r) :
    lex ([120, 39] ++ s ++ [39] ++ r) = (lex r).map' (.xconst (120 :: s) :: ·) := by
  have e : [120, 39] ++ s ++ [39] ++ r = 120 :: 39 :: (s ++ 39 :: r) := by simp
  rw [e]
  apply lex_some
  rw [step_x, bits_eq (cont_none h2) s hs]; rfl

/-! ### Dollar quoted texts and parameters -/

theorem step_dollar (r : Bytes) : step 36 r =
    match delim (36 :: r) with
    | some d => (dollar d (r.drop (d.length - 1))).map' fun p => (some (.sconst p.1), p.2)
    | none =>
      if r.takeWhile isDigit = [] then .ok (some (.chr 36), r)
      else .ok (some (.param (wrap32 (min (natOf (r.takeWhile isDigit)) (2 ^ 63 - 1)))), r.dropWhile isDigit) := by
  unfold step
  have n : ∀ {p q : Prop}, ¬ p → ¬ (p ∧ q) := fun h hq => h hq.1
  exact (if_neg (by decide)).trans <| (if_neg (n (by decide))).trans <| (if_neg (n (by decide))).trans <|
    (if_neg (by decide)).trans <| (if_neg (n (by decide))).trans <| (if_neg (n (by decide))).trans <|
    (if_neg (n (by decide))).trans <| (if_neg (n (by decide))).trans <| (if_neg (n (by decide))).trans (if_pos rfl)

theorem lex_dollar {tag : Bytes} (ht : tag.all dolqCont = true) (hs : nameNext (tag ++ [36]) = true) (body r : Bytes)
    (h : ¬ (36 :: tag ++ [36]) <:+: body ++ (36 :: tag)) :
    lex (36 :: tag ++ [36] ++ body ++ (36 :: tag ++ [36]) ++ r) = (lex r).map' (.sconst body :: ·) := by
  have e : 36 :: tag ++ [36] ++ body ++ (36 :: tag ++ [36]) ++ r = 36 :: (tag ++ 36 :: (body ++ ((36 :: tag ++ [36]) ++ r))) := by simp
  rw [e]
  apply lex_some
  rw [step_dollar]
  have hd : ∀ x : Bytes, delim (36 :: (tag ++ 36 :: x)) = some (36 :: tag ++ [36]) := fun x => by
    have := delim_eq ht hs x; simpa using this
  rw [hd]
  simp only
  have hdrop : (tag ++ 36 :: (body ++ ((36 :: tag ++ [36]) ++ r))).drop ((36 :: tag ++ [36]).length - 1) = body ++ ((36 :: tag ++ [36]) ++ r) := by
    have : (36 :: tag ++ [36]).length - 1 = (tag ++ [36]).length := by simp
    rw [this, show tag ++ 36 :: (body ++ ((36 :: tag ++ [36]) ++ r)) = (tag ++ [36]) ++ (body ++ ((36 :: tag ++ [36]) ++ r)) by simp]
    exact List.drop_left
  rw [hdrop, dollar_eq r (by have := delim_eq ht hs r; simpa using this) (by simp) body]
  · rfl
  · intro a b hb hne hp
    apply h
    have h1 : b ++ (36 :: tag) <+: b ++ (36 :: tag ++ [36]) ++ r := ⟨[36] ++ r, by simp⟩
    have h2 := List.prefix_of_prefix_length_le hp h1 (by
      have : 0 < b.length := List.length_pos_iff.mpr hne
      simp; omega)
    rw [hb, List.append_assoc]
    exact h2.isInfix.trans (List.suffix_append a _).isInfix

/-! ### Quoted names -/

theorem step_name (r : Bytes) : step 34 r =
    (dquoted r).bind fun p => if p.1 = [] then .throws else .ok (some (.ident (truncName p.1)), p.2) := by
  unfold step
  have n : ∀ {p q : Prop}, ¬ p → ¬ (p ∧ q) := fun h hq => h hq.1
  exact (if_neg (by decide)).trans <| (if_neg (n (by decide))).trans <| (if_neg (n (by decide))).trans <|
    (if_neg (by decide)).trans <| (if_neg (n (by decide))).trans <| (if_neg (n (by decide))).trans <|
    (if_neg (n (by decide))).trans <| (if_neg (n (by decide))).trans <| (if_neg (n (by decide))).trans <|
    (if_neg (by decide)).trans (if_pos rfl)

theorem truncName_short {s : Bytes} (h : s.length < 64) : truncName s = s := by
  unfold truncName NAMEDATALEN; rw [if_neg (by omega)]

theorem lex_name (s : Bytes) (hne : s ≠ []) {r : Bytes} (h1 : r.head? ≠ some 34) :
    lex (quoteName s ++ r) = (lex r).map' (.ident (truncName s) :: ·) := by
  have e : quoteName s ++ r = 34 :: (double 34 s ++ 34 :: r) := by simp [quoteName]
  rw [e]
  apply lex_some
  rw [step_name, dquoted_double _ _ h1, Res.bind_ok, if_neg hne]

/-! ### Numbers -/

set_option synthInstance.maxSize 2000 in
set_option synthInstance.maxHeartbeats 200000 in
theorem digit_facts : ∀ c : UInt8, isDigit c = true → isSpace c = false ∧ c ≠ 45 ∧ c ≠ 47 ∧ c ≠ 39 ∧ ¬ (c = 98 ∨ c = 66) ∧ ¬ (c = 120 ∨ c = 88) ∧
    ¬ (c = 110 ∨ c = 78) ∧ ¬ (c = 101 ∨ c = 69) ∧ ¬ (c = 117 ∨ c = 85) ∧ c ≠ 36 ∧ c ≠ 34 ∧ c ≠ 58 ∧ c ≠ 46 := by
  apply all_bytes; decide +kernel

theorem step_number (c : UInt8) (r : Bytes) (h : isDigit c = true ∨ (c = 46 ∧ (r.head?).any isDigit = true)) :
    step c r = .ok (some (number (c :: r)).1, (number (c :: r)).2) := by
  have n : ∀ {p q : Prop}, ¬ p → ¬ (p ∧ q) := fun h hq => h hq.1
  unfold step
  rcases h with h | h
  · obtain ⟨h1, h2, h3, h4, h5, h6, h7, h8, h9, h10, h11, h12, h13⟩ := digit_facts c h
    exact (if_neg (by simp [h1])).trans <| (if_neg (n h2)).trans <| (if_neg (n h3)).trans <|
      (if_neg h4).trans <| (if_neg (n h5)).trans <| (if_neg (n h6)).trans <|
      (if_neg (n h7)).trans <| (if_neg (n h8)).trans <| (if_neg (n h9)).trans <|
      (if_neg h10).trans <| (if_neg h11).trans <| (if_neg (n h12)).trans <| (if_neg (n h13)).trans <|
      (if_neg (n h12)).trans (if_pos (.inl h))
  · obtain ⟨rfl, hd⟩ := h
    have h46 : ¬ (r.head? = some 46) := by
      intro hr; rw [hr] at hd; revert hd; decide
    exact (if_neg (by decide)).trans <| (if_neg (n (by decide))).trans <| (if_neg (n (by decide))).trans <|
      (if_neg (by decide)).trans <| (if_neg (n (by decide))).trans <| (if_neg (n (by decide))).trans <|
      (if_neg (n (by decide))).trans <| (if_neg (n (by decide))).trans <| (if_neg (n (by decide))).trans <|
      (if_neg (by decide)).trans <| (if_neg (by decide)).trans <| (if_neg (n (by decide))).trans <|
      (if_neg (fun h => h46 h.2)).trans <| (if_neg (n (by decide))).trans (if_pos (.inr ⟨rfl, hd⟩))

/-- What may follow a number: nothing that goes on with it. -/
def EndsNumber (r : Bytes) : Prop := ∀ c, r.head? = some c → isDigit c = false ∧ c ≠ 46 ∧ c ≠ 69 ∧ c ≠ 101

theorem EndsNumber.noExp {r : Bytes} (h : EndsNumber r) : exponent r = none := by
  cases r with
  | nil => rfl
  | cons c r => have := h c rfl; unfold exponent; exact if_neg (by tauto)

theorem EndsNumber.hasE {r : Bytes} (h : EndsNumber r) : hasE r = false := by
  cases r with
  | nil => rfl
  | cons c r =>
    have := h c rfl
    simp [Lex.hasE, this]

theorem tw_digits {d r : Bytes} (hd : d.all isDigit = true) (h : ∀ c, r.head? = some c → isDigit c = false) :
    (d ++ r).takeWhile isDigit = d ∧ (d ++ r).dropWhile isDigit = r := by
  have hd' : ∀ c ∈ d, isDigit c = true := by simpa using hd
  rw [List.takeWhile_append_of_pos hd', List.dropWhile_append_of_pos hd']
  cases r with
  | nil => simp
  | cons c r =>
    have := h c rfl
    simp [List.takeWhile, List.dropWhile, this]

theorem number_int {d r : Bytes} (hd : d.all isDigit = true) (h : EndsNumber r) : number (d ++ r) = (intLit d, r) := by
  obtain ⟨h1, h2⟩ := tw_digits hd (fun c hc => (h c hc).1)
  unfold number
  simp only [h1, h2]
  rw [if_neg]
  · rw [h.noExp]; simp only [h.hasE, Bool.false_eq_true, if_false]
  · rintro ⟨h46, -⟩; exact (h 46 h46).2.1 rfl

theorem lex_int (n : Nat) {r : Bytes} (h : EndsNumber r) : lex (showNat n ++ r) = (lex r).map' (intLit (showNat n) :: ·) := by
  have hd := showNat_digits n
  simp only [isDigits, Bool.and_eq_true] at hd
  cases hs : showNat n with
  | nil => rw [hs] at hd; simp at hd
  | cons c d =>
    rw [hs] at hd
    have hc : isDigit c = true := by have := hd.2; simp at this; exact this.1
    rw [List.cons_append]
    apply lex_some
    rw [step_number c _ (.inl hc), ← List.cons_append, number_int hd.2 h]

theorem Digits_all {d : Bytes} (h : Digits d) : d.all isDigit = true := by
  simp only [List.all_eq_true, isDigit, Bool.and_eq_true, decide_eq_true_eq]; exact h

theorem exponent_eq {x r : Bytes} (hx : Exponent x) (h : EndsNumber r) : exponent (x ++ r) = some x := by
  obtain ⟨e, sign, d, he, hs, hd, hne, rfl⟩ := hx
  have hda := Digits_all hd
  obtain ⟨h1, -⟩ := tw_digits hda (fun c hc => (h c hc).1)
  cases d with
  | nil => exact absurd rfl hne
  | cons a d =>
    have ha : isDigit a = true := by simp at hda; exact hda.1
    have hpm : isPM a = false := by
      have : ∀ c : UInt8, isDigit c = true → isPM c = false := by apply all_bytes; decide +kernel
      exact this a ha
    rcases hs with rfl | rfl | rfl
    · simp only [List.append_nil, List.cons_append, List.nil_append] at h1 ⊢
      rw [exponent, if_pos (by tauto)]
      simp only [hpm, Bool.false_eq_true, if_false, h1]; simp
    · simp only [List.cons_append, List.nil_append] at h1 ⊢
      rw [exponent, if_pos (by tauto)]
      simp only [show isPM 43 = true by decide, if_true, h1]; simp
    · simp only [List.cons_append, List.nil_append] at h1 ⊢
      rw [exponent, if_pos (by tauto)]
      simp only [show isPM 45 = true by decide, if_true, h1]; simp

theorem exp_head {x r : Bytes} (hx : Exponent x) : ∀ c, (x ++ r).head? = some c → isDigit c = false ∧ c ≠ 46 := by
  obtain ⟨e, sign, d, he, -, -, -, rfl⟩ := hx
  intro c hc
  simp only [List.append_assoc, List.cons_append, List.head?_cons, Option.some.injEq] at hc
  subst hc
  rcases he with rfl | rfl <;> decide

theorem number_decimal {s r : Bytes} (hs : Decimal s) (h : EndsNumber r) : number (s ++ r) = (.fconst s, r) := by
  have h46 : isDigit 46 = false := by decide
  have point : ∀ {d f y : Bytes}, Digits d → Digits f → (d ≠ [] ∨ f ≠ []) → (∀ c, y.head? = some c → isDigit c = false ∧ c ≠ 46) →
      number (d ++ [46] ++ f ++ y) = match exponent y with
        | some e => (.fconst (d ++ 46 :: f ++ e), y.drop e.length)
        | none => (.fconst (d ++ 46 :: f), y) := by
    intro d f y hd hf hne hy
    obtain ⟨h1, h2⟩ := tw_digits (r := 46 :: (f ++ y)) (Digits_all hd) (by
      intro c hc; simp at hc; rw [← hc]; exact h46)
    obtain ⟨h3, h4⟩ := tw_digits (r := y) (Digits_all hf) (fun c hc => (hy c hc).1)
    have e : d ++ [46] ++ f ++ y = d ++ 46 :: (f ++ y) := by simp
    rw [e]
    unfold number
    simp only [h1, h2, List.head?_cons, List.tail_cons, h3, h4]
    refine (if_pos ⟨trivial, ?_⟩).trans rfl
    rintro ⟨-, hh⟩
    cases f with
    | nil => exact (hy 46 (by simpa using hh)).2 rfl
    | cons a f =>
      simp only [List.cons_append, List.head?_cons, Option.some.injEq] at hh
      subst hh
      exact absurd (hf 46 (by simp)) (by decide)
  rcases hs with ⟨d, f, hd, hf, hne, rfl⟩ | ⟨m, x, hm, hx, rfl⟩
  · rw [point hd hf hne (fun c hc => ⟨(h c hc).1, (h c hc).2.1⟩), h.noExp]; simp
  · rcases hm with ⟨d, f, hd, hf, hne, rfl⟩ | ⟨hd, hne⟩
    · rw [List.append_assoc _ x r, point hd hf hne (exp_head hx), exponent_eq hx h]
      simp
    · obtain ⟨h1, h2⟩ := tw_digits (r := x ++ r) (Digits_all hd) (fun c hc => (exp_head hx c hc).1)
      rw [List.append_assoc]
      unfold number
      simp only [h1, h2]
      rw [if_neg, exponent_eq hx h]
      · simp
      · rintro ⟨hh, -⟩; exact (exp_head hx 46 hh).2 rfl

theorem decimal_head {s : Bytes} (hs : Decimal s) (r : Bytes) : ∃ c t, s = c :: t ∧ (isDigit c = true ∨ (c = 46 ∧ ((t ++ r).head?).any isDigit = true)) := by
  have dg : ∀ {d : Bytes}, Digits d → d ≠ [] → ∃ c t, d = c :: t ∧ isDigit c = true := by
    intro d hd hne
    cases d with
    | nil => exact absurd rfl hne
    | cons c t => have := Digits_all hd; simp at this; exact ⟨c, t, rfl, this.1⟩
  have pt : ∀ {m : Bytes}, Point m → ∀ r, ∃ c t, m = c :: t ∧ (isDigit c = true ∨ (c = 46 ∧ ((t ++ r).head?).any isDigit = true)) := by
    rintro m ⟨d, f, hd, hf, hne, rfl⟩ r
    by_cases h : d = []
    · subst h
      obtain ⟨c, t, rfl, hc⟩ := dg hf (by simpa using hne)
      exact ⟨46, c :: t, by simp, .inr ⟨rfl, by simpa using hc⟩⟩
    · obtain ⟨c, t, rfl, hc⟩ := dg hd h
      exact ⟨c, t ++ [46] ++ f, by simp, .inl hc⟩
  rcases hs with h | ⟨m, x, hm | ⟨hd, hne⟩, hx, rfl⟩
  · exact pt h r
  · obtain ⟨c, t, rfl, hc⟩ := pt hm (x ++ r)
    exact ⟨c, t ++ x, rfl, by simpa using hc⟩
  · obtain ⟨c, t, rfl, hc⟩ := dg hd hne
    exact ⟨c, t ++ x, rfl, .inl hc⟩

theorem lex_decimal {s r : Bytes} (hs : Decimal s) (h : EndsNumber r) : lex (s ++ r) = (lex r).map' (.fconst s :: ·) := by
  have hn := number_decimal hs h
  obtain ⟨c, t, rfl, hc⟩ := decimal_head hs r
  rw [List.cons_append] at hn ⊢
  apply lex_some
  rw [step_number c _ hc, hn]

theorem lex_param (n : Nat) {r : Bytes} (hn : n < 2 ^ 31) (h : ∀ c, r.head? = some c → isDigit c = false) :
    lex (36 :: (showNat n ++ r)) = (lex r).map' (.param n :: ·) := by
  have hd := showNat_digits n
  simp only [isDigits, Bool.and_eq_true] at hd
  obtain ⟨h1, h2⟩ := tw_digits hd.2 h
  apply lex_some
  rw [step_dollar]
  have hdel : delim (36 :: (showNat n ++ r)) = none := by
    rw [delim, if_neg]
    rintro ⟨-, hnn, -⟩
    cases hs : showNat n with
    | nil => rw [hs] at hd; simp at hd
    | cons c d =>
      rw [hs] at hd hnn
      have hc : isDigit c = true := by have := hd.2; simp at this; exact this.1
      have : ∀ c : UInt8, isDigit c = true → (c == 36 || identStart c) = false := by apply all_bytes; decide +kernel
      rw [List.cons_append, nameNext, this c hc] at hnn; cases hnn
  rw [hdel]
  simp only [h1, h2]
  rw [if_neg (by intro h; rw [h] at hd; simp at hd), natOf_showNat]
  have : min n (2 ^ 63 - 1) = n := by omega
  rw [this, wrap32]
  have : n % 2 ^ 32 = n := Nat.mod_eq_of_lt (by omega)
  rw [this, if_pos hn]

end Verif.Lex
