import Verif.Lex.Marks
/-! Whole queries. -/
namespace Verif.Lex
open Verif
open Verif.Text (showNat natOf isDigit isDigits showNat_digits natOf_showNat)

/-- Nothing, a blank or a mark comes next. -/
def Ends (r : Bytes) : Prop := ∀ c, r.head? = some c → c ∈ blanks ++ marks

set_option synthInstance.maxSize 2000 in
set_option synthInstance.maxHeartbeats 200000 in
theorem ends_facts : ∀ c : UInt8, c ∈ blanks ++ marks → isDigit c = false ∧ c ≠ 46 ∧ c ≠ 69 ∧ c ≠ 101 ∧ identCont c = false ∧ c ≠ 39 ∧
    c ≠ 38 ∧ c ≠ 34 ∧ isOp c = false ∧ c ≠ 58 ∧ c ≠ 61 := by
  apply all_bytes; decide +kernel

theorem Ends.number {r : Bytes} (h : Ends r) : EndsNumber r := fun c hc => by
  have := ends_facts c (h c hc); tauto
theorem Ends.word {r : Bytes} (h : Ends r) : EndsWord r := fun c hc => by
  have := ends_facts c (h c hc); tauto
theorem Ends.op {r : Bytes} (h : Ends r) : ∀ c, r.head? = some c → isOp c = false := fun c hc => (ends_facts c (h c hc)).2.2.2.2.2.2.2.2.1
theorem Ends.digit {r : Bytes} (h : Ends r) : ∀ c, r.head? = some c → isDigit c = false := fun c hc => (ends_facts c (h c hc)).1
theorem Ends.quote {r : Bytes} (h : Ends r) : r.head? ≠ some 39 := fun hc => (ends_facts 39 (h 39 hc)).2.2.2.2.2.1 rfl
theorem Ends.dquote {r : Bytes} (h : Ends r) : r.head? ≠ some 34 := fun hc => (ends_facts 34 (h 34 hc)).2.2.2.2.2.2.2.1 rfl

theorem wrap32_small {n : Nat} (h : n < 2 ^ 31) : wrap32 n = n := by
  unfold wrap32
  have : n % 2 ^ 32 = n := Nat.mod_eq_of_lt (by omega)
  rw [this, if_pos h]

theorem getLast_quote (x : Bytes) : (x ++ [39]).getLast? = some 39 := by simp

theorem lex_writes {t : Tok} {x r : Bytes} (hw : Writes t x) (hf : (∃ c ∈ marks, x = [c]) ∨ Ends r)
    (hc : x.getLast? = some 39 → ¬ Continues r) : lex (x ++ r) = (lex r).map' (t :: ·) := by
  have notMark : ∀ {P : Prop}, ((∃ c ∈ marks, x = [c]) → False) → (Ends r → P) → P := by
    intro P h1 h2
    rcases hf with h | h
    · exact (h1 h).elim
    · exact h2 h
  have wordNotMark : plainName x → (∃ c ∈ marks, x = [c]) → False := by
    rintro hp ⟨c, hm, rfl⟩
    have := (plain_cont hp).1
    have h2 : ∀ c : UInt8, c ∈ marks → identStart c = false := by apply all_bytes; decide +kernel
    rw [h2 c hm] at this; cases this
  have digitNotMark : ∀ {c : UInt8} {d : Bytes}, x = c :: d → (isDigit c = true ∨ c = 46) → (∃ c ∈ marks, x = [c]) → False := by
    rintro c d rfl hd ⟨c', hm, he⟩
    have h2 : ∀ c : UInt8, c ∈ marks → isDigit c = false ∧ c ≠ 46 := by apply all_bytes; decide +kernel
    simp only [List.cons.injEq] at he
    rw [he.1] at hd
    have := h2 c' hm
    rcases hd with hd | hd
    · rw [this.1] at hd; cases hd
    · exact this.2 hd
  have nat : ∀ n, ∃ c d, showNat n = c :: d ∧ isDigit c = true := by
    intro n
    have hd := showNat_digits n
    simp only [isDigits, Bool.and_eq_true] at hd
    cases hs : showNat n with
    | nil => rw [hs] at hd; simp at hd
    | cons c d => rw [hs] at hd; exact ⟨c, d, rfl, by have := hd.2; simp at this; exact this.1⟩
  cases hw with
  | int n h =>
    obtain ⟨c, d, e, hd⟩ := nat n
    refine notMark (digitNotMark e (.inl hd)) fun he => ?_
    rw [lex_int n he.number, intLit, natOf_showNat, if_neg (by omega), wrap32_small h]
  | big n h =>
    obtain ⟨c, d, e, hd⟩ := nat n
    refine notMark (digitNotMark e (.inl hd)) fun he => ?_
    rw [lex_int n he.number, intLit, natOf_showNat, if_pos (by omega)]
  | decimal s h =>
    obtain ⟨c, t, e, hd⟩ := decimal_head h r
    exact notMark (digitNotMark e (hd.imp_right And.left)) fun he => lex_decimal h he.number
  | text s =>
    refine notMark ?_ fun he => lex_text s he.quote (hc ?_)
    · rintro ⟨c, hm, e⟩; have := congrArg List.length e; simp [quoteText] at this
    · exact getLast_quote _
  | escaped s h =>
    refine notMark ?_ fun he => lex_escaped s (fun c hc h0 => h (h0 ▸ hc)) he.quote (hc ?_)
    · rintro ⟨c, hm, e⟩; have := congrArg List.length e; simp [escapeText] at this
    · exact getLast_quote _
  | dollar tag body ht h =>
    have h1 : tag.all dolqCont = true ∧ nameNext (tag ++ [36]) = true := by
      rcases ht with rfl | ⟨hp, h36⟩
      · exact ⟨rfl, rfl⟩
      · cases tag with
        | nil => exact hp.elim
        | cons c tag =>
          have hl := hp.1
          rw [letter_iff] at hl
          refine ⟨?_, by simp [nameNext, hl]⟩
          refine List.all_eq_true.mpr fun d hd => ?_
          rcases List.mem_cons.mp hd with rfl | hd'
          · simp [dolqCont, hl]
          · have := hp.2 d hd'
            rw [letter_iff] at this
            simp only [dolqCont, isDigit, Bool.or_eq_true, Bool.and_eq_true, decide_eq_true_eq]
            rcases this with h | h | rfl
            · exact .inl h
            · exact .inr h
            · exact absurd hd h36
    have := lex_dollar h1.1 h1.2 body r (by simpa using h)
    simpa using this
  | bits s h =>
    have := lex_bits s (fun c hc h0 => h (h0 ▸ hc)) (hc (getLast_quote _))
    simpa using this
  | hex s h =>
    have := lex_hex s (fun c hc h0 => h (h0 ▸ hc)) (hc (getLast_quote _))
    simpa using this
  | name s hn h =>
    refine notMark ?_ fun he => ?_
    · rintro ⟨c, hm, e⟩; have := congrArg List.length e; simp [quoteName] at this
    · rw [lex_name _ hn he.dquote, truncName_short h]
  | plain w hw hk h =>
    refine notMark (wordNotMark hw) fun he => ?_
    rw [lex_plain hw hk he.word, truncName_short (by rw [lower_length]; exact h)]
  | keyword w hw hk => exact notMark (wordNotMark hw) fun he => lex_keyword hw hk he.word
  | op u h hn =>
    refine notMark ?_ fun he => ?_
    · rintro ⟨c, hm, rfl⟩
      have h2 : ∀ c : UInt8, c ∈ marks → isOp c = false := by apply all_bytes; decide +kernel
      have := isOp_mem c (h.2.1 c (by simp))
      rw [h2 c hm] at this; cases this
    · rw [lex_op h he.op, if_neg hn]
  | unequal =>
    refine notMark (by rintro ⟨c, hm, e⟩; simp at e) fun he => ?_
    have h : Operator [33, 61] := by
      refine ⟨by simp, by decide, ?_, ?_, by decide, by decide, by decide⟩
      · intro h
        have h2 := h.subset (List.mem_cons_self (a := 45) (l := [45])); revert h2; decide
      · intro h
        have h2 := h.subset (List.mem_cons_self (a := 47) (l := [42])); revert h2; decide
    rw [lex_op h he.op, if_pos rfl]
  | param n h =>
    refine notMark ?_ fun he => lex_param n h he.digit
    rintro ⟨c, hm, e⟩
    obtain ⟨c', d, e', -⟩ := nat n
    rw [e'] at e; simp at e
  | mark c h =>
    by_cases hm : c ∈ marks
    · exact lex_mark r hm
    · have he : Ends r := by
        rcases hf with ⟨c', hm', e⟩ | h
        · simp only [List.cons.injEq, and_true] at e; subst e; exact absurd hm' hm
        · exact h
      cases ho : isOp c with
      | true => exact lex_opchar ho ((isSelf_iff c).mpr h) he.op
      | false =>
        refine lex_single h ho (fun _ => ⟨?_, ?_⟩) (fun _ => ⟨?_, ?_⟩)
        · exact fun hh => (ends_facts _ (he _ hh)).2.2.2.2.2.2.2.2.2.1 rfl
        · exact fun hh => (ends_facts _ (he _ hh)).2.2.2.2.2.2.2.2.2.2 rfl
        · exact fun hh => (ends_facts _ (he _ hh)).2.1 rfl
        · show (r.head?).any isDigit = false
          cases hr : r.head? with
          | none => rfl
          | some d => simpa using he.digit d hr
  | typecast => exact lex_typecast r
  | dotDot => exact lex_dotDot r
  | colonEquals => exact lex_colonEquals r

/-! ### Between the tokens -/

theorem cont_gap {w : Bytes} (h : Blank w) (x : Bytes) : ∀ nl : Bool, ∃ nl' : Bool, cont nl false (w ++ x) = cont nl' false x ∧
    (nl = false → (∀ c ∈ w, c ≠ 10 ∧ c ≠ 13) → nl' = false) := by
  induction h with
  | nil => exact fun nl => ⟨nl, rfl, fun h _ => h⟩
  | space c w hc _ ih =>
    intro nl
    simp only [List.mem_cons, List.not_mem_nil, or_false] at hc
    have h39 : c ≠ 39 := by rcases hc with rfl | rfl | rfl | rfl | rfl <;> decide
    rw [List.cons_append, cont_cons]
    by_cases hw : c = 10 ∨ c = 13
    · rw [if_neg (by simp), if_neg h39, if_pos ((newline_iff c).mpr hw)]
      obtain ⟨nl', h, -⟩ := ih true
      exact ⟨nl', h, fun _ hn => by have := hn c (by simp); tauto⟩
    · rw [if_neg (by simp), if_neg h39, if_neg (by rw [newline_iff]; exact hw), if_pos (by rw [horiz_iff]; tauto)]
      obtain ⟨nl', h, hn⟩ := ih nl
      exact ⟨nl', h, fun h1 h2 => hn h1 fun d hd => h2 d (by simp [hd])⟩
  | comment s n w hs hn _ ih =>
    intro nl
    have e : [45, 45] ++ s ++ [n] ++ w ++ x = 45 :: 45 :: (s ++ n :: (w ++ x)) := by simp
    rw [e, cont_cons]
    simp only [Bool.false_eq_true, if_false, show (45 : UInt8) ≠ 39 by decide, show isNewline 45 = false by decide,
      show isHoriz 45 = false by decide, if_true, List.head?_cons, List.tail_cons]
    rw [cont_comment nl s n _ hs hn]
    obtain ⟨nl', h, -⟩ := ih true
    exact ⟨nl', h, fun _ h2 => by have := h2 n (by simp); tauto⟩

/-- A text that begins with no blank, quote or comment continues nothing. -/
theorem cont_stop {nl : Bool} {x : Bytes} (h : ∀ c, x.head? = some c → c ∉ blanks ∧ (c = 39 → nl = false) ∧ ¬ (c = 45 ∧ x.tail.head? = some 45)) :
    cont nl false x = none := by
  cases x with
  | nil => rfl
  | cons c x =>
    obtain ⟨h1, h2, h3⟩ := h c rfl
    simp only [blanks, List.mem_cons, List.not_mem_nil, or_false, not_or] at h1
    rw [cont_cons, if_neg (by simp)]
    by_cases h39 : c = 39
    · rw [if_pos h39, h2 h39]; rfl
    · rw [if_neg h39, if_neg (by rw [newline_iff]; tauto), if_neg (by rw [horiz_iff]; tauto)]
      by_cases h45 : c = 45
      · rw [if_pos h45, if_neg (fun hh : x.head? = some 45 => h3 ⟨h45, hh⟩)]
      · rw [if_neg h45]

theorem blanks_facts : ∀ c : UInt8, c ∈ blanks → isDigit c = false ∧ identStart c = false ∧ isOp c = false ∧ c ∉ marks ++ signs ∧ c ≠ 46 := by
  apply all_bytes; decide +kernel

/-- How written tokens begin. -/
theorem writes_head {t : Tok} {x : Bytes} (h : Writes t x) : ∃ c y, x = c :: y ∧ c ∉ blanks ∧
    (c = 45 → y.head? ≠ some 45 ∧ (y = [] → x = [45])) := by
  have nat : ∀ n, ∃ c d, showNat n = c :: d ∧ isDigit c = true := by
    intro n
    have hd := showNat_digits n
    simp only [isDigits, Bool.and_eq_true] at hd
    cases hs : showNat n with
    | nil => rw [hs] at hd; simp at hd
    | cons c d => rw [hs] at hd; exact ⟨c, d, rfl, by have := hd.2; simp at this; exact this.1⟩
  have dig : ∀ c : UInt8, isDigit c = true ∨ c = 46 → c ∉ blanks ∧ c ≠ 45 := by apply all_bytes; decide +kernel
  have ids : ∀ c : UInt8, identStart c = true → c ∉ blanks ∧ c ≠ 45 := by apply all_bytes; decide +kernel
  have lit : ∀ {c : UInt8} {x y : Bytes}, x = c :: y → (c ∉ blanks ∧ c ≠ 45) → ∃ c y, x = c :: y ∧ c ∉ blanks ∧ (c = 45 → y.head? ≠ some 45 ∧ (y = [] → x = [45])) :=
    fun {c x y} e h => ⟨c, y, e, h.1, fun h' => absurd h' h.2⟩
  cases h with
  | int n h => obtain ⟨c, d, e, hd⟩ := nat n; exact lit e (dig c (.inl hd))
  | big n h => obtain ⟨c, d, e, hd⟩ := nat n; exact lit e (dig c (.inl hd))
  | decimal s h => obtain ⟨c, t, e, hd⟩ := decimal_head h []; exact lit e (dig c (hd.imp_right And.left))
  | text s => exact lit (c := 39) rfl (by decide)
  | escaped s h => exact lit (c := 69) rfl (by decide)
  | dollar tag body ht h => exact lit (c := 36) rfl (by decide)
  | bits s h => exact lit (c := 98) rfl (by decide)
  | hex s h => exact lit (c := 120) rfl (by decide)
  | name s hn h => exact lit (c := 34) rfl (by decide)
  | plain w hw hk h =>
    cases x with
    | nil => exact hw.elim
    | cons c t => exact lit rfl (ids c (plain_cont hw).1)
  | keyword w hw hk =>
    cases x with
    | nil => exact hw.elim
    | cons c t => exact lit rfl (ids c (plain_cont hw).1)
  | op u h hn =>
    obtain ⟨hne, hop, h1, -⟩ := h
    cases x with
    | nil => exact absurd rfl hne
    | cons c t =>
      refine ⟨c, t, rfl, ?_, ?_⟩
      · intro hb
        have := isOp_mem c (hop c (by simp))
        rw [(blanks_facts c hb).2.2.1] at this; cases this
      · rintro rfl
        refine ⟨fun hh => ?_, fun hh => by rw [hh]⟩
        cases t with
        | nil => simp at hh
        | cons d t => simp only [List.head?_cons, Option.some.injEq] at hh; subst hh; exact h1 ⟨[], t, by simp⟩
  | unequal => exact lit (c := 33) rfl (by decide)
  | param n h => exact lit (c := 36) rfl (by decide)
  | mark c h =>
    refine ⟨c, [], rfl, fun hb => (blanks_facts c hb).2.2.2.1 h, ?_⟩
    rintro rfl; simp
  | typecast => exact lit (c := 58) rfl (by decide)
  | dotDot => exact lit (c := 46) rfl (by decide)
  | colonEquals => exact lit (c := 58) rfl (by decide)

theorem writeAll_eq : ∀ {l : List Piece}, WellWritten l → lex (writeAll l) = .ok (l.map (·.tok))
  | [], _ => by simp [writeAll, lex]
  | p :: l, h => by
    obtain ⟨hw, hb, hg, hq, hl⟩ := h
    have ih := writeAll_eq hl
    -- what follows the gap
    have key : ∀ q l', l = q :: l' → ∃ c y, q.text = c :: y ∧ c ∉ blanks ∧ writeAll l = c :: (y ++ q.gap ++ writeAll l') ∧
        ¬ (c = 45 ∧ (y ++ q.gap ++ writeAll l').head? = some 45) := by
      rintro q l' rfl
      obtain ⟨hwq, hbq, hgq, hqq, hlq⟩ := hl
      obtain ⟨c, y, e, hc, h45⟩ := writes_head hwq
      refine ⟨c, y, e, hc, by simp [writeAll, e], ?_⟩
      rintro ⟨rfl, hh⟩
      obtain ⟨h1, h2⟩ := h45 rfl
      cases y with
      | cons d y => simp at hh h1; exact h1 hh
      | nil =>
        have hx := h2 rfl
        simp only [List.nil_append] at hh
        cases hgap : q.gap with
        | cons d w =>
          rw [hgap] at hh hgq
          simp only [List.cons_append, List.head?_cons, Option.some.injEq] at hh
          subst hh
          simp [blanks] at hgq
        | nil =>
          rw [hgap] at hh
          simp only [List.nil_append] at hh
          cases l' with
          | nil => simp [writeAll] at hh
          | cons q' l'' =>
            obtain ⟨c', hm, hcc⟩ := (hqq q' rfl).1 hgap
            rcases hcc with hcc | hcc
            · rw [hx] at hcc; simp only [List.cons.injEq, and_true] at hcc; subst hcc; revert hm; decide
            · have : (writeAll (q' :: l'')).head? = some c' := by
                simp only [writeAll]
                cases ht : q'.text with
                | nil => rw [ht] at hcc; simp at hcc
                | cons a b => rw [ht] at hcc; simpa using hcc
              rw [this] at hh; simp only [Option.some.injEq] at hh; subst hh; revert hm; decide
    have hends : (∃ c ∈ marks, p.text = [c]) ∨ Ends (p.gap ++ writeAll l) := by
      rcases hg with hg | ⟨c, hc, hcb⟩
      · rw [hg, List.nil_append]
        cases l with
        | nil => exact .inr fun c hc => by simp [writeAll] at hc
        | cons q l' =>
          obtain ⟨c, hm, hc⟩ := (hq q rfl).1 hg
          rcases hc with hc | hc
          · exact .inl ⟨c, hm, hc⟩
          · refine .inr fun d hd => ?_
            obtain ⟨c', y, e, -, e2, -⟩ := key q l' rfl
            rw [e2] at hd; rw [e] at hc
            simp only [List.head?_cons, Option.some.injEq] at hd hc
            rw [← hd, hc]; simp [hm]
      · refine .inr fun d hd => ?_
        cases hgap : p.gap with
        | nil => rw [hgap] at hc; simp at hc
        | cons e w =>
          rw [hgap] at hc hd
          simp only [List.head?_cons, Option.mem_def, Option.some.injEq] at hc
          simp only [List.cons_append, List.head?_cons, Option.some.injEq] at hd
          rw [← hd, hc]; simp [hcb]
    have hcont : p.text.getLast? = some 39 → ¬ Continues (p.gap ++ writeAll l) := by
      intro hlast hco
      rw [cont_iff] at hco
      obtain ⟨nl', e, hnl⟩ := cont_gap hb (writeAll l) false
      rw [e] at hco
      rw [cont_stop] at hco
      · cases hco
      · intro c hc
        cases l with
        | nil => simp [writeAll] at hc
        | cons q l' =>
          obtain ⟨c', y, e1, e2, e3, e4⟩ := key q l' rfl
          rw [e3] at hc
          simp only [List.head?_cons, Option.some.injEq] at hc
          subst hc
          refine ⟨e2, fun h39 => hnl rfl ((hq q rfl).2 hlast (by rw [e1, h39]; rfl)), ?_⟩
          rw [e3]; exact e4
    simp only [writeAll, List.append_assoc]
    rw [lex_writes hw hends hcont, lex_blank hb, ih]
    rfl

end Verif.Lex
