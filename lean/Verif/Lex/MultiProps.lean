import Verif.Lex.Props
import Verif.Lex.MultiSpec
/-! C107: the statements of a query. -/
namespace Verif.Lex
open Verif

/-! ### Lemmas -/

theorem words_det {ts : List Tok} {gs hs : List GTok} (h1 : Words ts gs) (h2 : Words ts hs) : gs = hs := by
  induction h1 generalizing hs with
  | nil => cases h2; rfl
  | pair a b g ts gs h _ ih =>
    cases h2 with
    | pair _ _ g' _ gs' h' hr' =>
      have : g = g' := by
        simp only [pairs, List.mem_cons, Prod.mk.injEq, List.not_mem_nil, or_false] at h h'
        rcases h with ⟨rfl, rfl, rfl⟩ | ⟨rfl, rfl, rfl⟩ | ⟨rfl, rfl, rfl⟩ | ⟨rfl, rfl, rfl⟩ <;>
          rcases h' with ⟨e, f, rfl⟩ | ⟨e, f, rfl⟩ | ⟨e, f, rfl⟩ | ⟨e, f, rfl⟩ <;> first | rfl | exact absurd e (by decide) | exact absurd f (by decide)
      rw [this, ih hr']
    | one _ _ gs' h' hr' => exact absurd h (h' b (by simp) g)
  | one a ts gs h _ ih =>
    cases h2 with
    | pair _ b g' _ gs' h' hr' => exact absurd h' (h b (by simp) g')
    | one _ _ gs' h' hr' => rw [ih hr']

theorem not_pair_of {a b : Tok} (hn : a ≠ kwNulls) (hw : a ≠ kwWith) (g : GTok) : (a, b, g) ∉ pairs := by
  intro h
  simp only [pairs, List.mem_cons, Prod.mk.injEq, List.not_mem_nil, or_false] at h
  rcases h with ⟨rfl, -⟩ | ⟨rfl, -⟩ | ⟨rfl, -⟩ | ⟨rfl, -⟩
  exacts [hn rfl, hn rfl, hw rfl, hw rfl]

theorem not_pair_nulls {b : Tok} (h1 : b ≠ kwFirst) (h2 : b ≠ kwLast) (g : GTok) : (kwNulls, b, g) ∉ pairs := by
  intro h
  simp only [pairs, List.mem_cons, Prod.mk.injEq, List.not_mem_nil, or_false] at h
  rcases h with ⟨-, rfl, -⟩ | ⟨-, rfl, -⟩ | ⟨e, -⟩ | ⟨e, -⟩
  exacts [h1 rfl, h2 rfl, absurd e (by decide), absurd e (by decide)]

theorem not_pair_with {b : Tok} (h1 : b ≠ kwTime) (h2 : b ≠ kwOrdinality) (g : GTok) : (kwWith, b, g) ∉ pairs := by
  intro h
  simp only [pairs, List.mem_cons, Prod.mk.injEq, List.not_mem_nil, or_false] at h
  rcases h with ⟨e, -⟩ | ⟨e, -⟩ | ⟨-, rfl, -⟩ | ⟨-, rfl, -⟩
  exacts [absurd e (by decide), absurd e (by decide), h1 rfl, h2 rfl]

/-- The tokens a state still stands for. -/
def Ahead.all (a : Ahead) : List Tok := match a.kept with
  | none => a.rest
  | some none => []
  | some (some t) => t :: a.rest

/-- A state where the end is kept has nothing left. -/
def Ahead.Ok (a : Ahead) : Prop := a.kept = some none → a.rest = []

theorem left_all {a : Ahead} (h : a.Ok) : a.left = a.all.length := by
  rcases a with ⟨rest, _ | _ | t⟩
  · simp [Ahead.left, Ahead.all]
  · have := h rfl; simp only at this; subst this; simp [Ahead.left, Ahead.all]
  · simp [Ahead.left, Ahead.all]

theorem yylex_nil {a : Ahead} (h : a.all = []) : (yylex a).1 = none := by
  rcases a with ⟨rest, _ | _ | t⟩
  · simp only [Ahead.all] at h; subst h; rfl
  · rfl
  · simp [Ahead.all] at h

theorem yylex_cons {a : Ahead} {t : Tok} {r : List Tok} (h : a.all = t :: r) :
    (∃ b u g r', r = u :: r' ∧ (t, u, g) ∈ pairs ∧ yylex a = (some g, b) ∧ b.Ok ∧ b.all = r') ∨
    ∃ b, (∀ u ∈ r.head?, ∀ g, (t, u, g) ∉ pairs) ∧ yylex a = (some (.tok t), b) ∧ b.Ok ∧ b.all = r := by
  have e : yylex a = yylex ⟨r, some (some t)⟩ := by
    rcases a with ⟨rest, _ | _ | t'⟩
    · simp only [Ahead.all] at h; subst h; rfl
    · simp [Ahead.all] at h
    · simp only [Ahead.all, List.cons.injEq] at h; obtain ⟨rfl, rfl⟩ := h; rfl
  rw [e]
  by_cases hn : t = kwNulls
  · subst hn
    cases r with
    | nil =>
      refine .inr ⟨⟨[], some none⟩, by simp, ?_, fun _ => rfl, rfl⟩
      simp [yylex, core, keep]
    | cons u r' =>
      by_cases h1 : u = kwFirst
      · subst h1
        exact .inl ⟨⟨r', none⟩, _, .nullsFirst, r', rfl, by simp [pairs], by simp [yylex, core], by simp [Ahead.Ok], rfl⟩
      by_cases h2 : u = kwLast
      · subst h2
        exact .inl ⟨⟨r', none⟩, _, .nullsLast, r', rfl, by simp [pairs], by simp [yylex, core, h1], by simp [Ahead.Ok], rfl⟩
      refine .inr ⟨⟨r', some (some u)⟩, ?_, by simp [yylex, core, keep, h1, h2], by simp [Ahead.Ok], rfl⟩
      intro v hv g
      simp only [List.head?_cons, Option.mem_def, Option.some.injEq] at hv
      subst hv
      exact not_pair_nulls h1 h2 g
  by_cases hw : t = kwWith
  · subst hw
    cases r with
    | nil =>
      refine .inr ⟨⟨[], some none⟩, by simp, ?_, fun _ => rfl, rfl⟩
      simp [yylex, core, keep, hn]
    | cons u r' =>
      by_cases h1 : u = kwTime
      · subst h1
        exact .inl ⟨⟨r', none⟩, _, .withTime, r', rfl, by simp [pairs], by simp [yylex, core, hn], by simp [Ahead.Ok], rfl⟩
      by_cases h2 : u = kwOrdinality
      · subst h2
        exact .inl ⟨⟨r', none⟩, _, .withOrdinality, r', rfl, by simp [pairs], by simp [yylex, core, hn, h1], by simp [Ahead.Ok], rfl⟩
      refine .inr ⟨⟨r', some (some u)⟩, ?_, by simp [yylex, core, keep, hn, h1, h2], by simp [Ahead.Ok], rfl⟩
      intro v hv g
      simp only [List.head?_cons, Option.mem_def, Option.some.injEq] at hv
      subst hv
      exact not_pair_with h1 h2 g
  exact .inr ⟨⟨r, none⟩, fun u _ g => not_pair_of hn hw g, by simp [yylex, hn, hw], by simp [Ahead.Ok], rfl⟩

theorem drain_words : ∀ (n : Nat) (a : Ahead), a.all.length ≤ n → a.Ok → ∃ gs, drain a = .ok gs ∧ Words a.all gs := by
  intro n
  induction n with
  | zero =>
    intro a hl _
    have h : a.all = [] := List.length_eq_zero_iff.mp (by omega)
    refine ⟨[], ?_, h ▸ .nil⟩
    have := yylex_nil h
    unfold drain
    split
    · rfl
    · rename_i e; rw [e] at this; simp at this
  | succ n ih =>
    intro a hl hok
    cases h : a.all with
    | nil =>
      refine ⟨[], ?_, .nil⟩
      have := yylex_nil h
      unfold drain
      split
      · rfl
      · rename_i e; rw [e] at this; simp at this
    | cons t r =>
      rw [h] at hl
      simp only [List.length_cons] at hl
      rcases yylex_cons h with ⟨b, u, g, r', rfl, hp, e, hb, hall⟩ | ⟨b, hp, e, hb, hall⟩
      · simp only [List.length_cons] at hl
        obtain ⟨gs, hd, hw⟩ := ih b (by rw [hall]; omega) hb
        refine ⟨g :: gs, ?_, .pair _ _ _ _ _ hp (hall ▸ hw)⟩
        unfold drain
        rw [e]
        have hlt : b.left < a.left := by rw [left_all hb, left_all hok, hall, h]; simp only [List.length_cons]; omega
        simp only [dif_pos hlt, hd]
        rfl
      · obtain ⟨gs, hd, hw⟩ := ih b (by rw [hall]; omega) hb
        refine ⟨.tok t :: gs, ?_, .one _ _ _ hp (hall ▸ hw)⟩
        unfold drain
        rw [e]
        have hlt : b.left < a.left := by rw [left_all hb, left_all hok, hall, h]; simp only [List.length_cons]; omega
        simp only [dif_pos hlt, hd]
        rfl

theorem words_total (ts : List Tok) : ∃ gs, drain ⟨ts, none⟩ = .ok gs ∧ Words ts gs :=
  drain_words _ ⟨ts, none⟩ le_rfl (by simp [Ahead.Ok])

theorem pair_semi {a : Tok} {b : Tok} {g : GTok} (h : (a, b, g) ∈ pairs) : a ≠ .chr 59 ∧ b ≠ .chr 59 ∧ g ≠ .tok (.chr 59) := by
  simp only [pairs, List.mem_cons, Prod.mk.injEq, List.not_mem_nil, or_false] at h
  rcases h with ⟨rfl, rfl, rfl⟩ | ⟨rfl, rfl, rfl⟩ | ⟨rfl, rfl, rfl⟩ | ⟨rfl, rfl, rfl⟩ <;> decide

theorem words_semi {ts : List Tok} {gs : List GTok} (h : Words ts gs) (hs : .chr 59 ∉ ts) : .tok (.chr 59) ∉ gs := by
  induction h with
  | nil => simp
  | pair a b g ts gs hp _ ih =>
    have := pair_semi hp
    simp only [List.mem_cons, not_or] at hs ⊢
    exact ⟨fun e => this.2.2 e.symm, ih hs.2.2⟩
  | one a ts gs hp _ ih =>
    simp only [List.mem_cons, not_or] at hs ⊢
    exact ⟨fun e => hs.1 (by simpa using e), ih hs.2⟩

/-- `;` stands between words: no pair goes across. -/
theorem words_append {ts us : List Tok} {gs hs : List GTok} (h : Words ts gs) (h' : Words us hs) :
    Words (ts ++ [.chr 59] ++ us) (gs ++ [.tok (.chr 59)] ++ hs) := by
  induction h with
  | nil => exact .one _ _ _ (fun b _ g hp => (pair_semi hp).1 rfl) h'
  | pair a b g ts gs hp _ ih => exact .pair _ _ _ _ _ hp ih
  | one a ts gs hp _ ih =>
    refine .one _ _ _ ?_ ih
    cases ts with
    | nil =>
      intro b hb g hg
      have hb' : (some (Tok.chr 59) : Option Tok) = some b := hb
      exact (pair_semi hg).2.1 (Option.some.inj hb').symm
    | cons t ts => intro b hb; exact hp b (by simpa using hb)

theorem stmtmulti_seg {S : Type} {parse : List GTok → Option S} {gs : List GTok} (hs : .tok (.chr 59) ∉ gs) (acc : List S) (seg : List GTok) (r : List GTok) :
    stmtmulti parse acc seg (gs ++ r) = stmtmulti parse acc (seg ++ gs) r := by
  induction gs generalizing seg with
  | nil => simp
  | cons g gs ih =>
    simp only [List.mem_cons, not_or] at hs
    simp only [List.cons_append, stmtmulti]
    rw [if_neg (fun e => hs.1 e.symm), ih hs.2]
    simp

section
variable {S St R : Type} {parse : List GTok → Option S}

theorem words_ne {ts : List Tok} {gs : List GTok} (h : Words ts gs) (hne : ts ≠ []) : ∃ g r, gs = g :: r := by
  cases h with
  | nil => exact absurd rfl hne
  | pair _ _ g _ gs => exact ⟨_, _, rfl⟩
  | one => exact ⟨_, _, rfl⟩

theorem stmt_some {ts : List Tok} {gs : List GTok} {s : S} (h : Words ts gs) (hs : Statement parse ts s) : stmt parse gs = some (some s) := by
  obtain ⟨hne, gs', h', hp⟩ := hs
  obtain rfl := words_det h h'
  obtain ⟨g, r, rfl⟩ := words_ne h hne
  simp [stmt, hp]

theorem stmt_wrong {ts : List Tok} {gs : List GTok} (h : Words ts gs) (hs : Wrong parse ts) : stmt parse gs = none := by
  obtain ⟨hne, hw⟩ := hs
  obtain ⟨g, r, rfl⟩ := words_ne h hne
  cases hp : parse (g :: r) with
  | none => simp [stmt, hp]
  | some s => exact absurd ⟨hne, _, h, hp⟩ (hw s)

/-- What a part is. -/
theorem part_cases (ts : List Tok) : ts = [] ∨ (∃ s, Statement parse ts s) ∨ Wrong parse ts := by
  by_cases h : ts = []
  · exact .inl h
  · by_cases hs : ∃ s, Statement parse ts s
    · exact .inr (.inl hs)
    · exact .inr (.inr ⟨h, fun s h' => hs ⟨s, h'⟩⟩)

theorem intercalate_two (t u : List Tok) (us : List (List Tok)) :
    [Tok.chr 59].intercalate (t :: u :: us) = t ++ [.chr 59] ++ [Tok.chr 59].intercalate (u :: us) := by
  simp [List.intercalate]

theorem multi_good : ∀ {segs : List (List Tok)} {ss : List S}, Statements parse segs ss → segs ≠ [] → (∀ ts ∈ segs, Tok.chr 59 ∉ ts) →
    ∀ (gs : List GTok), Words ([Tok.chr 59].intercalate segs) gs → ∀ acc, stmtmulti parse acc [] gs = some (acc ++ ss) := by
  intro segs
  induction segs with
  | nil => intro _ _ h; exact absurd rfl h
  | cons ts segs ih =>
    intro ss hst _ hsemi gs hw acc
    obtain ⟨gt, -, hgt⟩ := words_total ts
    have hng := words_semi hgt (hsemi ts (by simp))
    have first : ∃ o ss', stmt parse gt = some o ∧ Statements parse segs ss' ∧ addStmt acc o ++ ss' = acc ++ ss := by
      cases hst with
      | empty _ _ h =>
        cases hgt
        exact ⟨none, _, rfl, h, rfl⟩
      | one _ s _ ss' hs h => exact ⟨some s, ss', stmt_some hgt hs, h, by simp [addStmt]⟩
    obtain ⟨o, ss', ho, hss, he⟩ := first
    cases segs with
    | nil =>
      cases hss
      have : gs = gt := words_det hw (by simpa [List.intercalate] using hgt)
      subst this
      have := stmtmulti_seg (parse := parse) hng acc [] []
      rw [List.append_nil] at this
      rw [this]
      simp only [List.nil_append, stmtmulti, ho, Option.map_some]
      rw [← he]; simp
    | cons u us =>
      rw [intercalate_two] at hw
      obtain ⟨gr, -, hgr⟩ := words_total ([Tok.chr 59].intercalate (u :: us))
      have := words_det hw (words_append hgt hgr)
      subst this
      rw [List.append_assoc, stmtmulti_seg hng]
      simp only [List.nil_append, List.cons_append, stmtmulti, if_pos, ho]
      rw [ih hss (by simp) (fun t ht => hsemi t (by simp [ht])) gr hgr, he]

theorem multi_wrong : ∀ {segs : List (List Tok)}, (∃ ts ∈ segs, Wrong parse ts) → (∀ ts ∈ segs, Tok.chr 59 ∉ ts) →
    ∀ (gs : List GTok), Words ([Tok.chr 59].intercalate segs) gs → ∀ acc, stmtmulti parse acc [] gs = none := by
  intro segs
  induction segs with
  | nil => rintro ⟨ts, h, -⟩; simp at h
  | cons ts segs ih =>
    intro hwr hsemi gs hw acc
    obtain ⟨gt, -, hgt⟩ := words_total ts
    have hng := words_semi hgt (hsemi ts (by simp))
    cases segs with
    | nil =>
      obtain ⟨t, ht, hwr⟩ := hwr
      simp only [List.mem_singleton] at ht
      subst ht
      have : gs = gt := words_det hw (by simpa [List.intercalate] using hgt)
      subst this
      have := stmtmulti_seg (parse := parse) hng acc [] []
      rw [List.append_nil] at this
      rw [this]
      simp [stmtmulti, stmt_wrong hgt hwr]
    | cons u us =>
      rw [intercalate_two] at hw
      obtain ⟨gr, -, hgr⟩ := words_total ([Tok.chr 59].intercalate (u :: us))
      have := words_det hw (words_append hgt hgr)
      subst this
      rw [List.append_assoc, stmtmulti_seg hng]
      simp only [List.nil_append, List.cons_append, stmtmulti, if_pos]
      by_cases hf : Wrong parse ts
      · rw [stmt_wrong hgt hf]
      · cases ho : stmt parse gt with
        | none => rfl
        | some o =>
          simp only
          apply ih _ (fun t ht => hsemi t (by simp [ht])) gr hgr
          obtain ⟨t, ht, hwt⟩ := hwr
          rcases List.mem_cons.mp ht with rfl | ht
          · exact absurd hwt hf
          · exact ⟨t, ht, hwt⟩

theorem raw_good {q : Bytes} {segs : List (List Tok)} {ss : List S} (hp : Parts q segs) (hs : Statements parse segs ss) : rawParser parse q = .ok ss := by
  obtain ⟨hne, hsemi, hl⟩ := hp
  obtain ⟨gs, hd, hw⟩ := words_total ([Tok.chr 59].intercalate segs)
  simp [rawParser, hl, Res.bind, hd, multi_good hs hne hsemi gs hw []]

theorem raw_wrong {q : Bytes} {segs : List (List Tok)} (hp : Parts q segs) (hs : ∃ ts ∈ segs, Wrong parse ts) : rawParser parse q = .throws := by
  obtain ⟨-, hsemi, hl⟩ := hp
  obtain ⟨gs, hd, hw⟩ := words_total ([Tok.chr 59].intercalate segs)
  simp [rawParser, hl, Res.bind, hd, multi_wrong hs hsemi gs hw []]

theorem split_semi (ts : List Tok) : ∃ segs : List (List Tok), segs ≠ [] ∧ (∀ t ∈ segs, Tok.chr 59 ∉ t) ∧ [Tok.chr 59].intercalate segs = ts := by
  induction ts with
  | nil => exact ⟨[[]], by simp, by simp, by simp [List.intercalate]⟩
  | cons t ts ih =>
    obtain ⟨segs, hne, hs, rfl⟩ := ih
    cases segs with
    | nil => exact absurd rfl hne
    | cons a as =>
      by_cases ht : t = .chr 59
      · subst ht
        exact ⟨[] :: a :: as, by simp, by simpa using hs, by rw [intercalate_two]; simp⟩
      · refine ⟨(t :: a) :: as, by simp, ?_, ?_⟩
        · intro u hu
          rcases List.mem_cons.mp hu with rfl | hu
          · simp only [List.mem_cons, not_or]
            exact ⟨fun e => ht e.symm, hs a (by simp)⟩
          · exact hs u (by simp [hu])
        · cases as with
          | nil => simp [List.intercalate]
          | cons b bs => rw [intercalate_two, intercalate_two]; simp

theorem statements_or_wrong (segs : List (List Tok)) : (∃ ss, Statements parse segs ss) ∨ ∃ ts ∈ segs, Wrong parse ts := by
  induction segs with
  | nil => exact .inl ⟨[], .nil⟩
  | cons ts segs ih =>
    rcases ih with ⟨ss, h⟩ | ⟨t, ht, hw⟩
    · rcases part_cases (parse := parse) ts with rfl | ⟨s, hs⟩ | hw
      · exact .inl ⟨ss, .empty _ _ h⟩
      · exact .inl ⟨s :: ss, .one _ _ _ _ hs h⟩
      · exact .inr ⟨ts, by simp, hw⟩
    · exact .inr ⟨t, by simp [ht], hw⟩

/-! ### The words -/

/-- What the grammar sees are the words of the text, for every text. -/
theorem C107_words (ts : List Tok) : ∃ gs, drain ⟨ts, none⟩ = .ok gs ∧ Words ts gs ∧ ∀ hs, Words ts hs → hs = gs := by
  obtain ⟨gs, hd, hw⟩ := words_total ts
  exact ⟨gs, hd, hw, fun hs h => words_det h hw⟩

/-- `ORDER BY NULLS NULLS LAST WITH`, with a column called nulls. -/
example : drain ⟨[kwNulls, kwNulls, kwLast, kwWith], none⟩ = .ok [.tok kwNulls, .nullsLast, .tok kwWith] := by
  obtain ⟨gs, hd, -, hu⟩ := C107_words [kwNulls, kwNulls, kwLast, kwWith]
  rw [hd, ← hu [.tok kwNulls, .nullsLast, .tok kwWith]]
  exact .one _ _ _ (by intro b hb g; simp at hb; subst hb; exact not_pair_nulls (by decide) (by decide) g)
    (.pair _ _ _ _ _ (by simp [pairs]) (.one _ _ _ (by simp) .nil))

/-! ### Statements -/

/-- Every text that can be scanned has parts, and they are statements or one of them is wrong. -/
theorem C107_every_text (parse : List GTok → Option S) (q : List UInt8) :
    lexSql q = .throws ∨ ∃ segs, Parts q segs ∧ ((∃ ss, Statements parse segs ss) ∨ ∃ ts ∈ segs, Wrong parse ts) := by
  rcases C100_total q with ⟨ts, h⟩ | h
  · obtain ⟨segs, hne, hs, rfl⟩ := split_semi ts
    exact .inr ⟨segs, ⟨hne, hs, h⟩, statements_or_wrong segs⟩
  · exact .inl h

/-- A text with one statement executes it, once, however many `;` stand around it. -/
theorem C107_one_statement (parse : List GTok → Option S) (run : S → St → St × Res R) (q : List UInt8) (segs : List (List Tok)) (s : S) (st : St)
    (hp : Parts q segs) (h : Statements parse segs [s]) : executeSql parse run q st = run s st := by
  simp [executeSql, raw_good hp h]

/-- A text with an error in any of its parts is refused, and nothing is executed, not even what stands before the
error. -/
theorem C107_error (parse : List GTok → Option S) (run : S → St → St × Res R) (q : List UInt8) (st : St)
    (h : lexSql q = .throws ∨ ∃ segs, Parts q segs ∧ ∃ ts ∈ segs, Wrong parse ts) : executeSql parse run q st = (st, .throws) := by
  rcases h with h | ⟨segs, hp, hw⟩
  · simp [executeSql, rawParser, h, Res.bind]
  · simp [executeSql, raw_wrong hp hw]

/-- What C107 would need: all statements of a text are executed in order, and a text with none does nothing. -/
def C107_all_claim : Prop :=
  ∀ (S St R : Type) (parse : List GTok → Option S) (run : S → St → St × Res R) (q : List UInt8) (segs : List (List Tok)) (st : St), Parts q segs →
    (∀ s ss, Statements parse segs (s :: ss) → executeSql parse run q st = runAll run s ss st) ∧
    (Statements parse segs [] → (executeSql parse run q st).1 = st ∧ (executeSql parse run q st).2 ≠ .ub)

/-- Only the first statement is executed. -/
theorem C107_first_partial (parse : List GTok → Option S) (run : S → St → St × Res R) (q : List UInt8) (segs : List (List Tok)) (s : S) (ss : List S) (st : St)
    (hp : Parts q segs) (h : Statements parse segs (s :: ss)) : executeSql parse run q st = run s st := by
  simp [executeSql, raw_good hp h]

/-- A text without a statement: empty, blanks, comments or `;`. -/
theorem C107_none_is_ub (parse : List GTok → Option S) (run : S → St → St × Res R) (q : List UInt8) (segs : List (List Tok)) (st : St)
    (hp : Parts q segs) (h : Statements parse segs []) : (executeSql parse run q st).2 = .ub := by
  simp [executeSql, raw_good hp h]

/-- Blanks, comments and `;` alone. -/
theorem C107_blank_is_ub (parse : List GTok → Option S) (run : S → St → St × Res R) (st : St) :
    (∀ w, Blank w → 0 ∉ w → (executeSql parse run w st).2 = .ub) ∧
    (∀ b, Inside b → 0 ∉ b → (executeSql parse run ([47, 42] ++ b ++ [42, 47]) st).2 = .ub) ∧
    (∀ n, (executeSql parse run (List.replicate n 59) st).2 = .ub) := by
  have nil : lexSql [] = .ok [] := by simpa [writeAll] using C100_tokens [] trivial (by simp [writeAll])
  have one : Statements parse [[]] [] := .empty _ _ .nil
  refine ⟨?_, ?_, ?_⟩
  · intro w hw h0
    have e := C100_blanks w [] h0 hw
    rw [List.append_nil, nil] at e
    exact C107_none_is_ub parse run w [[]] st ⟨by simp, by simp, by simp [List.intercalate, e]⟩ one
  · intro b hb h0
    have e := C100_comments b [] h0 hb
    rw [List.append_nil, nil] at e
    exact C107_none_is_ub parse run _ [[]] st ⟨by simp, by simp, by rw [e]; rfl⟩ one
  · intro n
    have lx : lexSql (List.replicate n 59) = .ok (List.replicate n (.chr 59)) := by
      have hw : ∀ n, WellWritten (List.replicate n ⟨.chr 59, [59], []⟩) := by
        intro n
        induction n with
        | zero => trivial
        | succ n ih =>
          refine ⟨.mark 59 (by decide), .nil, .inl rfl, ?_, ih⟩
          intro q _
          exact ⟨fun _ => ⟨59, by decide, .inl rfl⟩, fun h => absurd h (by decide)⟩
      have wr : ∀ n, writeAll (List.replicate n ⟨.chr 59, [59], []⟩) = List.replicate n 59 := by
        intro n
        induction n with
        | zero => rfl
        | succ n ih => simp [List.replicate_succ, writeAll, ih]
      have := C100_tokens _ (hw n) (by rw [wr]; simp [List.mem_replicate])
      rw [wr] at this
      simpa using this
    have int : ∀ n, [Tok.chr 59].intercalate (List.replicate (n + 1) []) = List.replicate n (.chr 59) := by
      intro n
      induction n with
      | zero => rfl
      | succ n ih =>
        rw [List.replicate_succ, List.replicate_succ, intercalate_two, ← List.replicate_succ, ih, List.replicate_succ]; rfl
    have sts : ∀ n, Statements parse (List.replicate n []) [] := by
      intro n
      induction n with
      | zero => exact .nil
      | succ n ih => exact .empty _ _ ih
    refine C107_none_is_ub parse run _ (List.replicate (n + 1) []) st ⟨by simp, ?_, by rw [lx, int]⟩ (sts _)
    intro t ht
    rw [(List.mem_replicate.mp ht).2]; simp

end

/-! ### Examples -/

/-- A grammar of statements that are one word, and a state that is the list of what was executed. -/
def wordParse : List GTok → Option Tok
  | [.tok (.ident s)] => some (.ident s)
  | _ => none
def logRun (s : Tok) (st : List Tok) : List Tok × Res Nat := (st ++ [s], .ok (st.length + 1))

theorem word_statement (s : Bytes) : Statement wordParse [.ident s] (.ident s) :=
  ⟨by simp, [.tok (.ident s)], .one _ _ _ (by simp) .nil, rfl⟩

/-- The text `a;b`. -/
theorem parts_ab : Parts [97, 59, 98] [[.ident [97]], [.ident [98]]] := by
  refine ⟨by simp, by simp, ?_⟩
  have := C100_tokens [⟨.ident [97], [97], []⟩, ⟨.chr 59, [59], []⟩, ⟨.ident [98], [98], []⟩] ?_ (by decide)
  · exact this
  · have pl : ∀ c : UInt8, c = 97 ∨ c = 98 → Writes (.ident [c]) [c] := by
      intro c hc
      have hl : lower [c] = [c] := by rcases hc with rfl | rfl <;> rfl
      have := Writes.plain [c] ⟨by rcases hc with rfl | rfl <;> (unfold letter; decide), by simp⟩ (by rcases hc with rfl | rfl <;> decide +kernel) (by simp)
      rwa [hl] at this
    refine ⟨pl 97 (.inl rfl), .nil, .inl rfl, ?_, .mark 59 (by decide), .nil, .inl rfl, ?_, pl 98 (.inr rfl), .nil, .inl rfl, by simp, trivial⟩
    · intro q hq
      simp only [List.head?_cons, Option.mem_def, Option.some.injEq] at hq
      subst hq
      exact ⟨fun _ => ⟨59, by decide, .inr rfl⟩, fun h => absurd h (by decide)⟩
    · intro q hq
      exact ⟨fun _ => ⟨59, by decide, .inl rfl⟩, fun h => absurd h (by decide)⟩

/-- `a;b` executes `a`; `b` is lost without a word. -/
theorem C107_second_fails : executeSql wordParse logRun [97, 59, 98] [] = ([.ident [97]], .ok 1) ∧
    runAll logRun (.ident [97]) [.ident [98]] [] = ([.ident [97], .ident [98]], .ok 2) ∧ ¬ C107_all_claim := by
  have hs : Statements wordParse [[.ident [97]], [.ident [98]]] [.ident [97], .ident [98]] :=
    .one _ _ _ _ (word_statement _) (.one _ _ _ _ (word_statement _) .nil)
  have e := C107_first_partial wordParse logRun _ _ _ _ [] parts_ab hs
  refine ⟨e, rfl, fun h => ?_⟩
  have := (h _ _ _ wordParse logRun _ _ [] parts_ab).1 _ _ hs
  rw [e] at this
  simp [logRun, runAll] at this

/-- `a;;` has one statement. -/
example (st : List Tok) : executeSql wordParse logRun [97, 59, 59] st = (st ++ [.ident [97]], .ok (st.length + 1)) := by
  refine C107_one_statement wordParse logRun _ [[.ident [97]], [], []] (.ident [97]) st ⟨by simp, by simp, ?_⟩
    (.one _ _ _ _ (word_statement _) (.empty _ _ (.empty _ _ .nil)))
  exact C100_tokens [⟨.ident [97], [97], []⟩, ⟨.chr 59, [59], []⟩, ⟨.chr 59, [59], []⟩]
    ⟨Writes.plain [97] ⟨by unfold letter; decide, by simp⟩ (by decide +kernel) (by simp), .nil, .inl rfl,
      (fun q hq => ⟨fun _ => ⟨59, by decide, .inr (by simp at hq; subst hq; rfl)⟩, fun h => absurd h (by decide)⟩), .mark 59 (by decide), .nil, .inl rfl,
      (fun q _ => ⟨fun _ => ⟨59, by decide, .inl rfl⟩, fun h => absurd h (by decide)⟩), .mark 59 (by decide), .nil, .inl rfl, by simp, trivial⟩ (by decide)

/-- A grammar that knows only `a`: `a;b` is refused as a whole. -/
example (st : List Tok) : executeSql (fun gs => if gs = [.tok (.ident [97])] then some (Tok.ident [97]) else none) logRun [97, 59, 98] st = (st, .throws) := by
  refine C107_error _ logRun _ st (.inr ⟨_, parts_ab, [.ident [98]], by simp, by simp, ?_⟩)
  rintro s ⟨-, gs, hw, hp⟩
  obtain rfl := words_det hw (.one (.ident [98]) [] [] (by simp) .nil)
  simp at hp

end Verif.Lex
