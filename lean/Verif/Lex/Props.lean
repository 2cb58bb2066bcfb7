import Verif.Lex.Ops
import Verif.Lex.Chars
/-!
C100: what the words, texts, names and numbers of a query are read as. How they are written is in
`Verif.Lex.Spec`.
-/
namespace Verif.Lex
open Verif
open Verif.Text (showNat natOf isDigit isDigits showNat_digits natOf_showNat)

/-! ### Every query -/

/-- Every query, whatever bytes it consists of, is read to its end or refused. -/
theorem C100_total (q : List UInt8) : (∃ ts, lexSql q = .ok ts) ∨ lexSql q = .throws := by
  rcases lex_fine _ (cstr q) le_rfl with ⟨ts, h, -⟩ | h
  · exact .inl ⟨ts, h⟩
  · exact .inr h

/-- Queries that are written as the specification says are read as the tokens that were written, and no
others. -/
theorem C100_tokens (l : List Piece) (h : WellWritten l) (h0 : 0 ∉ writeAll l) : lexSql (writeAll l) = .ok (l.map (·.tok)) := by
  unfold lexSql
  rw [cstr_self (fun c hc e => h0 (e ▸ hc))]
  exact writeAll_eq h

/-! ### Texts -/

/-- A text with its quotes doubled is one token, whatever it contains: nothing of it is read as SQL. -/
theorem C100_quoted_text (s r : List UInt8) (h0 : 0 ∉ s) (h1 : r.head? ≠ some 39) (h2 : ¬ Continues r) :
    lexSql (quoteText s ++ r) = (lexSql r).map' fun ts => .sconst s :: ts := by
  unfold lexSql
  rw [cstr_append (quoteText_zero h0), lex_text s (cstr_head h1) (cstr_continues h2)]

/-- Two texts with nothing but blanks between them, and a newline among these, are one text. -/
theorem C100_joined_texts (s w t r : List UInt8) (hs : 0 ∉ s) (ht : 0 ∉ t) (hw0 : 0 ∉ w) (hw : Blank w) (hn : ∃ c ∈ w, c = 10 ∨ c = 13)
    (h1 : r.head? ≠ some 39) (h2 : ¬ Continues r) :
    lexSql (quoteText s ++ w ++ quoteText t ++ r) = (lexSql r).map' fun ts => .sconst (s ++ t) :: ts := by
  unfold lexSql
  rw [cstr_append (x := quoteText s ++ w ++ quoteText t), lex_joined s t w hw hn (cstr_head h1) (cstr_continues h2)]
  simp [quoteText_zero hs, quoteText_zero ht, hw0]

/-- What C100 would need: every text can be written between quotes. -/
def C100_quoted_text_claim : Prop := ∀ s : List UInt8, lexSql (quoteText s) = .ok [.sconst s]

theorem C100_quoted_text_partial (s : List UInt8) (h : 0 ∉ s) : lexSql (quoteText s) = .ok [.sconst s] := by
  have := C100_quoted_text s [] h (by simp) (by rintro ⟨w, r, -, -, e⟩; simp at e)
  rw [List.append_nil] at this
  rw [this]
  unfold lexSql
  rw [show cstr [] = [] from rfl, lex_nil]; rfl

/-- A query ends at its first 0: a text with a 0 in it is never closed. -/
theorem C100_text_with_zero_fails : (∀ s r : List UInt8, 0 ∈ s → lexSql (quoteText s ++ r) = .throws) ∧ ¬ C100_quoted_text_claim := by
  have key : ∀ s r : List UInt8, 0 ∈ s → lexSql (quoteText s ++ r) = .throws := by
    intro s r h
    obtain ⟨a, b, rfl, ha⟩ := split_zero h
    have e : quoteText (a ++ 0 :: b) ++ r = ([39] ++ double 39 a) ++ (0 :: (double 39 b ++ [39] ++ r)) := by
      have : double 39 (0 :: b) = 0 :: double 39 b := by simp [double]
      simp [quoteText, double_append, this]
    unfold lexSql
    rw [e, cstr_append (by have := double_zero (q := 39) ha; simp [this])]
    have : cstr (0 :: (double 39 b ++ [39] ++ r)) = [] := by simp [cstr]
    rw [this, List.append_nil]
    show lex (39 :: double 39 a) = .throws
    exact lex_throws (by rw [step_quote, quoted_open]; rfl)
  refine ⟨key, fun h => ?_⟩
  have h1 := h [0]
  have h2 := key [0] [] (by simp)
  rw [List.append_nil, h1] at h2
  cases h2

/-- Texts with escapes stand for what the specification of the escapes says. -/
theorem C100_escapes (x s r : List UInt8) (h : Escaped x s) (hx : 0 ∉ x) (hs : 0 ∉ s) (h1 : r.head? ≠ some 39) (h2 : ¬ Continues r) :
    lexSql ([69, 39] ++ x ++ [39] ++ r) = (lexSql r).map' fun ts => .sconst s :: ts := by
  unfold lexSql
  rw [cstr_append (x := [69, 39] ++ x ++ [39]) (by simp [hx]), lex_escapes h (cstr_head h1) (cstr_continues h2),
    cstr_self (fun c hc e => hs (e ▸ hc))]

/-- An escape for the byte 0 cuts the text there, without a word. -/
theorem C100_escaped_zero_fails (x y s t : List UInt8) (hx : Escaped x s) (hy : Escaped y t) (hx0 : 0 ∉ x) (hy0 : 0 ∉ y) (hs : 0 ∉ s) :
    Escaped (x ++ ([92, 48, 48, 48] ++ y)) (s ++ ([0] ++ t)) ∧
      lexSql ([69, 39] ++ (x ++ ([92, 48, 48, 48] ++ y)) ++ [39]) = .ok [.sconst s] := by
  have app : ∀ {x s : Bytes}, Escaped x s → ∀ {y t : Bytes}, Escaped y t → Escaped (x ++ y) (s ++ t) := by
    intro x s h y t hy
    induction h with
    | nil => exact hy
    | plain c x s hq hb _ ih => simpa using Escaped.plain c _ _ hq hb ih
    | quotes x s _ ih => simpa using Escaped.quotes _ _ ih
    | letter e c x s he _ ih => simpa using Escaped.letter e c _ _ he ih
    | other c x s hc _ ih => simpa using Escaped.other c _ _ hc ih
    | octal a b c ha hb hc x s _ ih => simpa using Escaped.octal a b c ha hb hc _ _ ih
    | hex d n hl hn x s _ ih => simpa using Escaped.hex d n hl hn _ _ ih
    | unicode d n hl hn h0 hs x s _ ih => simpa using Escaped.unicode d n hl hn h0 hs _ _ ih
    | unicode8 d n hl hn h0 hs hm x s _ ih => simpa using Escaped.unicode8 d n hl hn h0 hs hm _ _ ih
    | pair d e n m hd he hn hm h1 h2 x s _ ih => simpa using Escaped.pair d e n m hd he hn hm h1 h2 _ _ ih
  have hz : Escaped ([92, 48, 48, 48] ++ y) ([0] ++ t) := Escaped.octal 0 0 0 (by decide) (by decide) (by decide) y t hy
  have h := app hx hz
  refine ⟨h, ?_⟩
  have hl := lex_escapes h (r := []) (by simp) (by rintro ⟨w, r, -, -, e⟩; simp at e)
  rw [List.append_nil] at hl
  unfold lexSql
  rw [cstr_self (by
    intro c hc e
    subst e
    simp only [List.cons_append, List.nil_append, List.append_assoc, List.mem_cons, List.mem_append, List.not_mem_nil, or_false] at hc
    rcases hc with h | h | h | h | h | h | h | h | h
    all_goals first | exact absurd h (by decide) | exact hx0 h | exact hy0 h), hl, lex_nil, cstr_append hs]
  simp [cstr]

/-! ### Blanks and comments -/

theorem C100_blanks (w r : List UInt8) (h0 : 0 ∉ w) (h : Blank w) : lexSql (w ++ r) = lexSql r := by
  unfold lexSql
  rw [cstr_append h0, lex_blank h]

/-- Comments, with comments in them, are passed over. -/
theorem C100_comments (s r : List UInt8) (h0 : 0 ∉ s) (h : Inside s) : lexSql ([47, 42] ++ s ++ [42, 47] ++ r) = lexSql r := by
  unfold lexSql
  rw [cstr_append (x := [47, 42] ++ s ++ [42, 47]) (by simp [h0]), lex_comment h]

/-! ### Operators -/

/-- Signs right behind an operator are tokens of their own: `a=-1`, `a<=-+1`. -/
theorem C100_sign_after_operator (u w r : List UInt8) (hne : u ≠ []) (hu : ∀ c ∈ u, c ∈ ([43, 45, 42, 47, 60, 62, 61] : List UInt8))
    (hlen : u.length < 64) (hl : u.length = 1 ∨ (u.getLast? ≠ some 43 ∧ u.getLast? ≠ some 45)) (hw : ∀ c ∈ w, c = 43 ∨ c = 45) (hwn : w ≠ [])
    (h1 : ¬ [45, 45] <:+: u ++ w) (h2 : ¬ [47, 42] <:+: u ++ w) (hr : ∀ c ∈ r.head?, c ∈ blanks ++ marks ∨ letter c ∨ (48 ≤ c ∧ c ≤ 57)) :
    lexSql (u ++ w ++ r) = (lexSql (w ++ r)).map' fun ts => operatorToken u :: ts := by
  have hu0 : 0 ∉ u := fun h => absurd (hu 0 h) (by decide)
  have hw0 : 0 ∉ w := fun h => absurd (hw 0 h) (by decide)
  have key : ∀ c : UInt8, (c ∈ blanks ++ marks ∨ identStart c = true ∨ (48 ≤ c ∧ c ≤ 57)) → isOp c = false := by
    apply all_bytes; decide +kernel
  unfold lexSql
  rw [cstr_append (x := u ++ w) (by simp [hu0, hw0]), cstr_append hw0, lex_sign hne hu hlen hl hw hwn h1 h2]
  intro c hc
  apply key
  have := hr c (by
    obtain ⟨t, e⟩ := cstr_prefix r
    rw [e]
    cases hcs : cstr r with
    | nil => rw [hcs] at hc; simp at hc
    | cons a b => rw [hcs] at hc; simpa using hc)
  rwa [letter_iff] at this

/-- What would be an operator but for its length, 64 characters or more, is refused. -/
theorem C100_long_operator (u r : List UInt8) (hop : ∀ c ∈ u, c ∈ ([43, 45, 42, 47, 60, 62, 61] : List UInt8) ++ [126, 33, 64, 35, 94, 38, 124, 96, 63, 37])
    (h1 : ¬ [45, 45] <:+: u) (h2 : ¬ [47, 42] <:+: u)
    (hpm : u.getLast? = some 43 ∨ u.getLast? = some 45 → ∃ c ∈ u, c ∈ ([126, 33, 64, 35, 94, 38, 124, 96, 63, 37] : List UInt8)) (hlen : 64 ≤ u.length)
    (hr : ∀ c ∈ r.head?, c ∈ blanks ++ marks ∨ letter c ∨ (48 ≤ c ∧ c ≤ 57)) : lexSql (u ++ r) = .throws := by
  have hu0 : 0 ∉ u := fun h => absurd (hop 0 h) (by decide)
  have key : ∀ c : UInt8, (c ∈ blanks ++ marks ∨ identStart c = true ∨ (48 ≤ c ∧ c ≤ 57)) → isOp c = false := by
    apply all_bytes; decide +kernel
  have hr' : ∀ c, (cstr r).head? = some c → isOp c = false := by
    intro c hc
    apply key
    have := hr c (by
      obtain ⟨t, e⟩ := cstr_prefix r
      rw [e]
      cases hcs : cstr r with
      | nil => rw [hcs] at hc; simp at hc
      | cons a b => rw [hcs] at hc; simpa using hc)
    rwa [letter_iff] at this
  have hop' : ∀ c ∈ u, isOp c = true := fun c hc => isOp_mem c (hop c hc)
  have et := tw_op hop' hr'
  unfold lexSql
  rw [cstr_append hu0]
  have eo : operator u = .throws := by
    unfold operator
    rw [opText_self' h1 h2 hpm]
    rcases u with _ | ⟨c, _ | ⟨d, u⟩⟩
    · simp at hlen
    · simp at hlen
    · simp only
      unfold NAMEDATALEN
      rw [if_pos hlen]
  cases u with
  | nil => simp at hlen
  | cons c u =>
    rw [List.cons_append] at et ⊢
    apply lex_throws
    have hh : ∀ {a b : UInt8}, isOp b = true → ¬ [a, b] <:+: c :: u → ¬ (c = a ∧ (u ++ cstr r).head? = some b) := by
      rintro a b hb hi ⟨rfl, hh⟩
      cases u with
      | nil => simp at hlen
      | cons d u =>
        simp only [List.cons_append, List.head?_cons, Option.some.injEq] at hh; subst hh
        exact hi ⟨[], u, by simp⟩
    rw [step_op (hop' c (by simp)) (hh (by decide) h1) (hh (by decide) h2), et, eo]
    rfl

/-- 64 times <, then a blank; 63 of them are an operator. -/
example : lexSql (List.replicate 64 60 ++ [32]) = .throws ∧ Operator (List.replicate 63 60) := by
  have hi : ∀ (n : Nat) (a b : UInt8), b ≠ 60 ∨ a ≠ 60 → ¬ [a, b] <:+: List.replicate n (60 : UInt8) := by
    intro n a b hb h
    have h1 := h.subset (show a ∈ [a, b] by simp)
    have h2 := h.subset (show b ∈ [a, b] by simp)
    rcases hb with hb | hb
    · exact hb (List.eq_of_mem_replicate h2)
    · exact hb (List.eq_of_mem_replicate h1)
  constructor
  · refine C100_long_operator _ _ (fun c hc => by rw [List.eq_of_mem_replicate hc]; decide) (hi _ _ _ (by decide)) (hi _ _ _ (by decide)) ?_ (by simp) ?_
    · intro h; exact absurd h (by decide)
    · intro c hc; simp at hc; subst hc; exact .inl (by decide)
  · exact ⟨by decide, fun c hc => by rw [List.eq_of_mem_replicate hc]; decide, hi _ _ _ (by decide), hi _ _ _ (by decide), by simp, by decide, fun h => absurd h (by decide)⟩

/-- Comments may begin right behind an operator. -/
theorem C100_comment_after_operator (u r k : List UInt8) (hu : Operator u) (hn : u ≠ [33, 61]) (hk : k = [47, 42] ∨ (k = [45, 45] ∧ u.getLast? ≠ some 45)) :
    lexSql (u ++ (k ++ r)) = (lexSql (k ++ r)).map' fun ts => .op u :: ts := by
  have hu0 : 0 ∉ u := fun h => absurd (hu.2.1 0 h) (by decide)
  have hk0 : 0 ∉ k := by rcases hk with rfl | ⟨rfl, -⟩ <;> decide
  unfold lexSql
  rw [cstr_append hu0, cstr_append hk0]
  rcases hk with rfl | ⟨rfl, hl⟩
  · have := lex_op_comment (r := cstr r) (a := 47) (b := 42) hu (.inl ⟨rfl, rfl⟩) (fun h => absurd h (by decide))
    rw [if_neg hn] at this; exact this
  · have := lex_op_comment (r := cstr r) (a := 45) (b := 45) hu (.inr ⟨rfl, rfl⟩) (fun _ => hl)
    rw [if_neg hn] at this; exact this

/-! ### Names -/

/-- Words that differ only in the case of ASCII letters are read as the same token. -/
theorem C100_case (v w : List UInt8) (hv : plainName v) (hw : plainName w) (h : lower v = lower w) : lexSql v = lexSql w := by
  have nz : ∀ {w : Bytes}, plainName w → cstr w = w := by
    intro w hw
    apply cstr_self
    rintro c hc rfl
    cases w with
    | nil => exact hw.elim
    | cons d t =>
      rcases List.mem_cons.mp hc with rfl | hc
      · exact absurd hw.1 (by unfold letter; decide)
      · exact absurd (hw.2 0 hc) (by unfold letter; decide)
  have ends : EndsWord [] := fun c hc => by simp at hc
  unfold lexSql
  rw [nz hv, nz hw]
  by_cases hk : lower v ∈ keywordTable
  · have h1 := lex_keyword hv hk ends
    have h2 := lex_keyword hw (h ▸ hk) ends
    rw [List.append_nil] at h1 h2
    rw [h1, h2, h]
  · have h1 := lex_plain hv hk ends
    have h2 := lex_plain hw (h ▸ hk) ends
    rw [List.append_nil] at h1 h2
    rw [h1, h2, h]

/-- What C100 would need: a quoted name is read as it is. -/
def C100_quoted_name_claim : Prop := ∀ s : List UInt8, s ≠ [] → 0 ∉ s → lexSql (quoteName s) = .ok [.ident s]

/-- A quoted name is read as a beginning of it that is shorter than 64 bytes; as it is if it is shorter. -/
theorem C100_quoted_name_partial (s : List UInt8) (hne : s ≠ []) (h0 : 0 ∉ s) :
    ∃ t, lexSql (quoteName s) = .ok [.ident t] ∧ t <+: s ∧ t.length < 64 ∧ (s.length < 64 → t = s) := by
  refine ⟨truncName s, ?_, (truncName_prefix s).1, (truncName_prefix s).2, truncName_short⟩
  unfold lexSql
  have hz : 0 ∉ quoteName s := by have := double_zero (q := 34) h0; simp [quoteName, this]
  rw [cstr_self (fun c hc e => hz (e ▸ hc))]
  have := lex_name s hne (r := []) (by simp)
  rw [List.append_nil] at this
  rw [this, lex_nil]; rfl

/-- A long name is cut behind the last character that fits into 63 bytes, never inside one. -/
theorem C100_name_characters (cs : List (List UInt8)) (hne : cs ≠ []) (hc : ∀ u ∈ cs, Character u) :
    ∃ k ≤ cs.length, lexSql (quoteName cs.flatten) = .ok [.ident (cs.take k).flatten] ∧ (cs.take k).flatten.length < 64 ∧
      (k < cs.length → 64 ≤ (cs.take (k + 1)).flatten.length) := by
  obtain ⟨k, hk, h1, h2⟩ := truncName_chars cs hc
  have h0 : 0 ∉ cs.flatten := by
    simp only [List.mem_flatten, not_exists, not_and]
    exact fun u hu => (char_no_zero (hc u hu)).2
  have hn : cs.flatten ≠ [] := by
    obtain ⟨u, r, rfl⟩ := List.exists_cons_of_ne_nil hne
    have := (char_no_zero (hc u (by simp))).1
    simp [this]
  refine ⟨k, hk, ?_, h1 ▸ (truncName_prefix _).2, h2⟩
  unfold lexSql
  have hz : 0 ∉ quoteName cs.flatten := by have := double_zero (q := 34) h0; simp [quoteName, this]
  rw [cstr_self (fun c hc e => hz (e ▸ hc))]
  have := lex_name cs.flatten hn (r := []) (by simp)
  rw [List.append_nil] at this
  rw [this, lex_nil, h1]; rfl

/-- Names that agree in their first 63 bytes are the same name. -/
theorem C100_long_name_fails :
    (∀ a b : List UInt8, a.length = 63 → (∀ c ∈ a, c ≠ 0 ∧ c < 128) → b ≠ [] → 0 ∉ b → lexSql (quoteName (a ++ b)) = .ok [.ident a]) ∧
      ¬ C100_quoted_name_claim := by
  have key : ∀ a b : List UInt8, a.length = 63 → (∀ c ∈ a, c ≠ 0 ∧ c < 128) → b ≠ [] → 0 ∉ b →
      lexSql (quoteName (a ++ b)) = .ok [.ident a] := by
    intro a b ha hc hb h0
    have hz' : 0 ∉ a ++ b := by
      simp only [List.mem_append, not_or]
      exact ⟨fun h => (hc 0 h).1 rfl, h0⟩
    have hz : 0 ∉ quoteName (a ++ b) := by have := double_zero (q := 34) hz'; simp [quoteName, this]
    unfold lexSql
    rw [cstr_self (fun c hc e => hz (e ▸ hc))]
    have := lex_name (a ++ b) (by simp [hb]) (r := []) (by simp)
    rw [List.append_nil] at this
    rw [this, lex_nil, truncName_long ha hc hb]; rfl
  refine ⟨key, fun h => ?_⟩
  have h1 := key (List.replicate 63 97) [98] (by simp) (fun c hc => by rw [List.eq_of_mem_replicate hc]; decide) (by simp) (by simp)
  rw [h _ (by simp) (by simp)] at h1
  have h2 := congrArg (fun x => match x with | Res.ok [Tok.ident s] => s.length | _ => 0) h1
  simp at h2

/-! ### Numbers -/

/-- What C100 would need: an integer in a query is read as that number, or, if it does not fit, left as text
for a later stage. -/
def C100_integers_claim : Prop := ∀ n : Nat, lexSql (showNat n) = .ok [.iconst n] ∨ lexSql (showNat n) = .ok [.fconst (showNat n)]

theorem C100_integers_partial (n : Nat) :
    (n < 2 ^ 31 → lexSql (showNat n) = .ok [.iconst n]) ∧ (2 ^ 63 ≤ n → lexSql (showNat n) = .ok [.fconst (showNat n)]) := by
  rw [lexSql_nat, intLit, natOf_showNat]
  constructor
  · intro h; rw [if_neg (by omega), wrap32_small h]
  · intro h; rw [if_pos (by omega)]

/-- From 2^31 to 2^63 - 1 another number is read: what remains of it in 32 bits. -/
theorem C100_large_integer_fails :
    (∀ n : Nat, 2 ^ 31 ≤ n → n < 2 ^ 63 → ∃ m : Int, lexSql (showNat n) = .ok [.iconst m] ∧ m ≠ n ∧ m % 2 ^ 32 = (n : Int) % 2 ^ 32 ∧
      -2 ^ 31 ≤ m ∧ m < 2 ^ 31) ∧
    lexSql (showNat 5000000000) = .ok [.iconst 705032704] ∧ ¬ C100_integers_claim := by
  have key : ∀ n : Nat, n < 2 ^ 63 → lexSql (showNat n) = .ok [.iconst (wrap32 n)] := by
    intro n h; rw [lexSql_nat, intLit, natOf_showNat, if_neg (by omega)]
  refine ⟨fun n h1 h2 => ⟨_, key n h2, wrap32_large h1⟩, ?_, fun h => ?_⟩
  · rw [key _ (by decide)]; rfl
  · have hk := key 5000000000 (by decide)
    rcases h 5000000000 with h | h
    · rw [hk] at h; exact absurd h (by decide)
    · rw [hk] at h; cases h

/-! ### Cases that meet the hypotheses -/

/-- The query

    SELECT a,"B" >= 'it''s -- x' --'
    1.5e3;

Its text, name, operator and number are read as they were written. -/
def query : List Piece :=
  [⟨.kw [115, 101, 108, 101, 99, 116], [83, 69, 76, 69, 67, 84], [32]⟩, ⟨.ident [97], [97], []⟩, ⟨.chr 44, [44], []⟩,
   ⟨.ident [66], quoteName [66], [32]⟩, ⟨.op [62, 61], [62, 61], [32]⟩,
   ⟨.sconst [105, 116, 39, 115, 32, 45, 45, 32, 120], quoteText [105, 116, 39, 115, 32, 45, 45, 32, 120], [32, 45, 45, 39, 10]⟩,
   ⟨.fconst [49, 46, 53, 101, 51], [49, 46, 53, 101, 51], []⟩, ⟨.chr 59, [59], []⟩]

theorem query_written : WellWritten query := by
  have sp : ∀ {w : Bytes}, Blank w → Blank (32 :: w) := fun h => .space 32 _ (by decide) h
  refine ⟨?_, sp .nil, .inr ⟨32, rfl, by decide⟩, ?_, ?_, .nil, .inl rfl, ?_, ?_, .nil, .inl rfl, ?_, ?_, sp .nil, .inr ⟨32, rfl, by decide⟩, ?_,
    ?_, sp .nil, .inr ⟨32, rfl, by decide⟩, ?_, ?_, sp (.comment [39] 10 [] (by decide) (.inl rfl) .nil), .inr ⟨32, rfl, by decide⟩, ?_,
    ?_, .nil, .inl rfl, ?_, ?_, .nil, .inl rfl, ?_, trivial⟩
  · exact (show lower [83, 69, 76, 69, 67, 84] = [115, 101, 108, 101, 99, 116] by decide) ▸
      Writes.keyword [83, 69, 76, 69, 67, 84] (by unfold plainName letter; decide) (by decide +kernel)
  · rintro q ⟨⟩; exact ⟨fun h => by simp at h, fun h => by simp at h⟩
  · exact (show lower [97] = [97] by decide) ▸ Writes.plain [97] (by unfold plainName letter; decide) (by decide +kernel) (by decide)
  · rintro q ⟨⟩; exact ⟨fun _ => ⟨44, by decide, .inr rfl⟩, fun h => by simp at h⟩
  · exact .mark 44 (by decide)
  · rintro q ⟨⟩; exact ⟨fun _ => ⟨44, by decide, .inl rfl⟩, fun h => by simp at h⟩
  · exact .name [66] (by decide) (by decide)
  · rintro q ⟨⟩; exact ⟨fun h => by simp at h, fun h => by simp [quoteName, double] at h⟩
  · refine .op [62, 61] ⟨by decide, by decide, ?_, ?_, by decide, by decide, by decide⟩ (by decide)
    · intro h
      have h2 := h.subset (List.mem_cons_self (a := 45) (l := [45])); revert h2; decide
    · intro h
      have h2 := h.subset (List.mem_cons_self (a := 47) (l := [42])); revert h2; decide
  · rintro q ⟨⟩; exact ⟨fun h => by simp at h, fun h => by simp at h⟩
  · exact .text _
  · rintro q ⟨⟩; exact ⟨fun h => by simp at h, fun _ h => by simp at h⟩
  · exact .decimal _ (.inr ⟨[49, 46, 53], [101, 51], .inl ⟨[49], [53], by unfold Digits; decide, by unfold Digits; decide, by decide, rfl⟩,
      ⟨101, [], [51], by decide, by decide, by unfold Digits; decide, by decide, rfl⟩, rfl⟩)
  · rintro q ⟨⟩; exact ⟨fun _ => ⟨59, by decide, .inr rfl⟩, fun h => by simp at h⟩
  · exact .mark 59 (by decide)
  · rintro q ⟨⟩

example : lexSql (writeAll query) = .ok [.kw [115, 101, 108, 101, 99, 116], .ident [97], .chr 44, .ident [66], .op [62, 61],
    .sconst [105, 116, 39, 115, 32, 45, 45, 32, 120], .fconst [49, 46, 53, 101, 51], .chr 59] :=
  C100_tokens query query_written (by decide)

/-- `'; DROP TABLE t; --` and a quote behind it. -/
example : lexSql (quoteText [39, 59, 32, 68, 82, 79, 80, 32, 84, 59, 45, 45] ++ [59]) =
    .ok [.sconst [39, 59, 32, 68, 82, 79, 80, 32, 84, 59, 45, 45], .chr 59] := by
  rw [C100_quoted_text _ _ (by decide) (by decide)]
  · show (lex [59]).map' _ = _
    rw [lex_mark [] (by decide), lex_nil]; rfl
  · rintro ⟨w, r, hw, ⟨c, hc, hn⟩, e⟩
    have := congrArg List.length e
    cases w with
    | nil => simp at hc
    | cons d w => simp at e

/-- `'a' <newline> 'b'` -/
example : lexSql (quoteText [97] ++ [10] ++ quoteText [98] ++ []) = .ok [.sconst [97, 98]] := by
  rw [C100_joined_texts [97] [10] [98] [] (by decide) (by decide) (by decide) (.space 10 [] (by decide) .nil) ⟨10, by decide, .inl rfl⟩ (by decide)
    (by rintro ⟨w, r, -, -, e⟩; simp at e)]
  show (lex []).map' _ = _
  rw [lex_nil]; rfl

/-- `E'a\n\x41\101\u00e9\'b'` -/
example : Escaped [97, 92, 110, 92, 120, 52, 49, 92, 49, 48, 49, 92, 117, 48, 48, 101, 57, 92, 39, 98] [97, 10, 65, 65, 0xC3, 0xA9, 39, 98] :=
  .plain 97 _ _ (by decide) (by decide) <| .letter 110 10 _ _ (by decide) <| .hex [52, 49] 0x41 rfl ⟨[4, 1], by decide, by decide⟩ _ _ <|
  .octal 1 0 1 (by decide) (by decide) (by decide) _ _ <| .unicode [48, 48, 101, 57] 0xe9 rfl ⟨[0, 0, 14, 9], by decide, by decide⟩ (by decide) (by decide) _ _ <|
  .other 39 _ _ (by decide) <| .plain 98 _ _ (by decide) (by decide) .nil

/-- `E'\ud83d\ude00'` is one character of four bytes. -/
example : Escaped [92, 117, 100, 56, 51, 100, 92, 117, 100, 101, 48, 48] [0xF0, 0x9F, 0x98, 0x80] :=
  .pair [100, 56, 51, 100] [100, 101, 48, 48] 0xd83d 0xde00 rfl rfl ⟨[13, 8, 3, 13], by decide, by decide⟩ ⟨[13, 14, 0, 0], by decide, by decide⟩
    (by decide) (by decide) [] [] .nil

/-- `<=-1` -/
example : lexSql ([60, 61] ++ [45] ++ [49]) = (lexSql ([45] ++ [49])).map' fun ts => .op [60, 61] :: ts := by
  refine C100_sign_after_operator [60, 61] [45] [49] (by decide) (by decide) (by decide) (by decide) (by decide) (by decide) ?_ ?_
    (by intro c hc; simp at hc; subst hc; exact .inr (.inr (by decide)))
  · intro h
    have := h.sublist; revert this; decide
  · intro h
    have := h.sublist; revert this; decide

/-- Forty times é, eighty bytes. -/
example : ∀ u ∈ List.replicate 40 [0xC3, 0xA9], Character u := by
  intro u hu
  rw [List.eq_of_mem_replicate hu]
  exact .two 0xC3 0xA9 (by decide) (by decide) (by decide)

/-- A comment in a comment. -/
example : Inside [97, 47, 42, 98, 42, 47, 99] :=
  .byte 97 _ (by decide) (by decide) (.nested [98] [99] (.byte 98 _ (by decide) (by decide) .nil) (.byte 99 _ (by decide) (by decide) .nil))

/-- `Select` and `sELECT`. -/
example : lexSql [83, 101, 108, 101, 99, 116] = lexSql [115, 69, 76, 69, 67, 84] :=
  C100_case _ _ (by unfold plainName letter; decide) (by unfold plainName letter; decide) (by decide)

example : lexSql (showNat 2147483647) = .ok [.iconst 2147483647] := (C100_integers_partial 2147483647).1 (by decide)
example : ∃ m : Int, lexSql (showNat 2147483648) = .ok [.iconst m] ∧ m ≠ 2147483648 := by
  obtain ⟨m, h1, h2, -⟩ := C100_large_integer_fails.1 2147483648 (by decide) (by decide)
  exact ⟨m, h1, h2⟩
example : ∃ t, lexSql (quoteName [65, 34]) = .ok [.ident t] ∧ t = [65, 34] := by
  obtain ⟨t, h1, -, -, h2⟩ := C100_quoted_name_partial [65, 34] (by decide) (by decide)
  exact ⟨t, h1, h2 (by decide)⟩

end Verif.Lex
