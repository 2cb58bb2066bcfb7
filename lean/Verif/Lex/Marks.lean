import Verif.Lex.Tokens
/-! Words, operators and single characters. -/
namespace Verif.Lex
open Verif
open Verif.Text (showNat natOf isDigit isDigits showNat_digits natOf_showNat)

private theorem n {p q : Prop} : ¬ p → ¬ (p ∧ q) := fun h hq => h hq.1

/-! ### Words -/

set_option synthInstance.maxSize 2000 in
set_option synthInstance.maxHeartbeats 200000 in
theorem word_facts : ∀ c : UInt8, identStart c = true → isSpace c = false ∧ c ≠ 45 ∧ c ≠ 47 ∧ c ≠ 39 ∧ c ≠ 36 ∧ c ≠ 34 ∧ c ≠ 58 ∧ c ≠ 46 ∧
    isDigit c = false ∧ isOp c = false := by
  apply all_bytes; decide +kernel

theorem identCont_facts : ∀ c : UInt8, identCont c = true → c ≠ 39 ∧ c ≠ 38 := by
  apply all_bytes; decide +kernel

theorem letter_iff (c : UInt8) : letter c ↔ identStart c = true := by
  simp [letter, identStart, or_assoc]

theorem plain_cont {c : UInt8} {t : Bytes} (h : plainName (c :: t)) : identStart c = true ∧ t.all identCont = true := by
  refine ⟨(letter_iff c).mp h.1, List.all_eq_true.mpr fun d hd => ?_⟩
  have := h.2 d hd
  rw [letter_iff] at this
  simp only [identCont, isDigit, Bool.or_eq_true, Bool.and_eq_true, decide_eq_true_eq, beq_iff_eq]
  tauto

/-- What may follow a word. -/
def EndsWord (r : Bytes) : Prop := ∀ c, r.head? = some c → identCont c = false ∧ c ≠ 39 ∧ c ≠ 38

theorem step_word {c : UInt8} {t r : Bytes} (hc : identStart c = true) (ht : t.all identCont = true) (hr : EndsWord r) :
    step c (t ++ r) = match lookup (c :: t) with
      | some k => .ok (some (.kw k), r)
      | none => .ok (some (.ident (foldName (c :: t))), r) := by
  obtain ⟨h1, h2, h3, h4, h5, h6, h7, h8, h9, h10⟩ := word_facts c hc
  have hhead : (t ++ r).head? ≠ some 39 ∧ (t ++ r).head? ≠ some 38 := by
    cases t with
    | nil => constructor <;> (intro h; have := hr _ h; simp at this)
    | cons d t =>
      have := identCont_facts d (by simp at ht; exact ht.1)
      simpa using this
  have hcc : identCont c = true := by simp [identCont, hc]
  have ht' : ∀ d ∈ c :: t, identCont d = true := by
    intro d hd
    rcases List.mem_cons.mp hd with rfl | hd
    · exact hcc
    · exact List.all_eq_true.mp ht d hd
  have e1 : (c :: (t ++ r)).takeWhile identCont = c :: t ∧ (c :: (t ++ r)).dropWhile identCont = r := by
    rw [← List.cons_append, List.takeWhile_append_of_pos ht', List.dropWhile_append_of_pos ht']
    cases r with
    | nil => simp
    | cons d r => have := (hr d rfl).1; simp [List.takeWhile, List.dropWhile, this]
  unfold step
  refine (if_neg (by simp [h1])).trans <| (if_neg (n h2)).trans <| (if_neg (n h3)).trans <|
      (if_neg h4).trans <| (if_neg fun h => hhead.1 h.2).trans <| (if_neg fun h => hhead.1 h.2).trans <|
      (if_neg fun h => hhead.1 h.2).trans <| (if_neg fun h => hhead.1 h.2).trans <| (if_neg fun h => hhead.2 h.2).trans <|
      (if_neg h5).trans <| (if_neg h6).trans <| (if_neg (n h7)).trans <| (if_neg (n h8)).trans <|
      (if_neg (n h7)).trans <| (if_neg ?_).trans <| (if_neg (by simp [h10])).trans <| (if_pos hc).trans ?_
  · rintro (h | h)
    · rw [h9] at h; cases h
    · exact h8 h.1
  · rw [e1.1, e1.2]
    generalize lookup (c :: t) = k
    cases k <;> rfl

theorem lex_keyword {w r : Bytes} (hw : plainName w) (hk : lower w ∈ keywordTable) (hr : EndsWord r) :
    lex (w ++ r) = (lex r).map' (.kw (lower w) :: ·) := by
  cases w with
  | nil => exact hw.elim
  | cons c t =>
    obtain ⟨hc, ht⟩ := plain_cont hw
    rw [List.cons_append]
    apply lex_some
    rw [step_word hc ht hr, (lookup_iff _ _).mpr ⟨rfl, hk⟩]

theorem lex_plain {w r : Bytes} (hw : plainName w) (hk : lower w ∉ keywordTable) (hr : EndsWord r) :
    lex (w ++ r) = (lex r).map' (.ident (truncName (lower w)) :: ·) := by
  cases w with
  | nil => exact hw.elim
  | cons c t =>
    obtain ⟨hc, ht⟩ := plain_cont hw
    rw [List.cons_append]
    apply lex_some
    rw [step_word hc ht hr, lookup_none hk]
    simp only [foldName, lower_eq]

/-! ### Operators -/

set_option synthInstance.maxSize 2000 in
set_option synthInstance.maxHeartbeats 200000 in
theorem op_facts : ∀ c : UInt8, isOp c = true → isSpace c = false ∧ c ≠ 39 ∧ ¬ (c = 98 ∨ c = 66) ∧ ¬ (c = 120 ∨ c = 88) ∧
    ¬ (c = 110 ∨ c = 78) ∧ ¬ (c = 101 ∨ c = 69) ∧ ¬ (c = 117 ∨ c = 85) ∧ c ≠ 36 ∧ c ≠ 34 ∧ c ≠ 58 ∧ c ≠ 46 ∧ isDigit c = false := by
  apply all_bytes; decide +kernel

theorem step_op {c : UInt8} {r : Bytes} (hc : isOp c = true) (h45 : ¬ (c = 45 ∧ r.head? = some 45)) (h47 : ¬ (c = 47 ∧ r.head? = some 42)) :
    step c r = (operator ((c :: r).takeWhile isOp)).map' fun p => (some p.1, (c :: r).drop p.2.length) := by
  obtain ⟨h1, h2, h3, h4, h5, h6, h7, h8, h9, h10, h11, h12⟩ := op_facts c hc
  unfold step
  refine (if_neg (by simp [h1])).trans <| (if_neg h45).trans <| (if_neg h47).trans <|
      (if_neg h2).trans <| (if_neg (n h3)).trans <| (if_neg (n h4)).trans <|
      (if_neg (n h5)).trans <| (if_neg (n h6)).trans <| (if_neg (n h7)).trans <|
      (if_neg h8).trans <| (if_neg h9).trans <| (if_neg (n h10)).trans <| (if_neg (n h11)).trans <|
      (if_neg (n h10)).trans <| (if_neg ?_).trans (if_pos hc)
  rintro (h | h)
  · rw [h12] at h; cases h
  · exact h11 h.1

theorem beforeComment_self : ∀ {u : Bytes}, ¬ [45, 45] <:+: u → ¬ [47, 42] <:+: u → beforeComment u = u
  | [], _, _ => rfl
  | c :: u, h1, h2 => by
    have ih := beforeComment_self (u := u) (fun h => h1 (h.trans (List.suffix_cons c u).isInfix))
      (fun h => h2 (h.trans (List.suffix_cons c u).isInfix))
    rw [beforeComment, if_neg, ih]
    rintro (⟨rfl, h⟩ | ⟨rfl, h⟩)
    · cases u with
      | nil => simp at h
      | cons d u => simp only [List.head?_cons, Option.some.injEq] at h; subst h; exact h2 ⟨[], u, by simp⟩
    · cases u with
      | nil => simp at h
      | cons d u => simp only [List.head?_cons, Option.some.injEq] at h; subst h; exact h1 ⟨[], u, by simp⟩

theorem isOp_mem : ∀ c : UInt8, c ∈ ([43, 45, 42, 47, 60, 62, 61] : Bytes) ++ [126, 33, 64, 35, 94, 38, 124, 96, 63, 37] → isOp c = true := by
  apply all_bytes; decide +kernel

theorem isSelf_iff : ∀ c : UInt8, isSelf c = true ↔ c ∈ marks ++ signs := by
  apply all_bytes; decide +kernel

theorem self_op : ∀ c : UInt8, isOp c = true → isSelf c = true → c ∈ signs := by
  apply all_bytes; decide +kernel

theorem pm_iff (c : UInt8) : isPM c = true ↔ c = 43 ∨ c = 45 := by simp [isPM]

theorem opText_self' {u : Bytes} (h1 : ¬ [45, 45] <:+: u) (h2 : ¬ [47, 42] <:+: u)
    (hpm : u.getLast? = some 43 ∨ u.getLast? = some 45 → ∃ c ∈ u, c ∈ ([126, 33, 64, 35, 94, 38, 124, 96, 63, 37] : Bytes)) : opText u = u := by
  unfold opText
  rw [beforeComment_self h1 h2]
  simp only
  rw [if_neg]
  rintro ⟨-, hlast, hsp⟩
  apply hsp
  have hlast : u.getLast? = some 43 ∨ u.getLast? = some 45 := by
    cases hg : u.getLast? with
    | none => rw [hg] at hlast; simp at hlast
    | some c => rw [hg] at hlast; simp only [Option.any_some, pm_iff] at hlast; simpa using hlast
  obtain ⟨c, hc, hm⟩ := hpm hlast
  refine List.any_eq_true.mpr ⟨c, hc, ?_⟩
  simpa [isSpecialOp] using hm

theorem opText_self {u : Bytes} (h : Operator u) : opText u = u := opText_self' h.2.2.1 h.2.2.2.1 h.2.2.2.2.2.2

theorem operator_self {u : Bytes} (h : Operator u) : operator u = .ok (.op (if u = [33, 61] then [60, 62] else u), u) := by
  have e := opText_self h
  obtain ⟨hne, hop, h1, h2, hl, hs, hpm⟩ := h
  unfold operator
  rw [e]
  simp only
  cases u with
  | nil => exact absurd rfl hne
  | cons c u =>
    cases u with
    | nil =>
      simp only
      rw [if_neg, if_neg (by simp)]
      intro hc
      exact hs c (self_op c (isOp_mem c (hop c (by simp))) hc) rfl
    | cons d u =>
      simp only
      unfold NAMEDATALEN
      rw [if_neg (by omega)]
      split <;> rfl

theorem tw_op {u r : Bytes} (hop : ∀ c ∈ u, isOp c = true) (hr : ∀ c, r.head? = some c → isOp c = false) : (u ++ r).takeWhile isOp = u := by
  rw [List.takeWhile_append_of_pos hop]
  cases r with
  | nil => simp
  | cons c r => have := hr c rfl; simp [List.takeWhile, this]

theorem lex_op {u r : Bytes} (h : Operator u) (hr : ∀ c, r.head? = some c → isOp c = false) :
    lex (u ++ r) = (lex r).map' (.op (if u = [33, 61] then [60, 62] else u) :: ·) := by
  have eo := operator_self h
  obtain ⟨hne, hop, h1, h2, hl, hs, hpm⟩ := h
  have hop' : ∀ c ∈ u, isOp c = true := fun c hc => isOp_mem c (hop c hc)
  have et := tw_op hop' hr
  cases u with
  | nil => exact absurd rfl hne
  | cons c u =>
    rw [List.cons_append] at et ⊢
    apply lex_some
    have hh : ∀ {a b : UInt8}, isOp b = true → ¬ [a, b] <:+: c :: u → ¬ (c = a ∧ (u ++ r).head? = some b) := by
      rintro a b hb hi ⟨rfl, hh⟩
      cases u with
      | nil => have := hr b (by simpa using hh); rw [hb] at this; cases this
      | cons d u =>
        simp only [List.cons_append, List.head?_cons, Option.some.injEq] at hh; subst hh
        exact hi ⟨[], u, by simp⟩
    rw [step_op (hop' c (by simp)) (hh (by decide) h1) (hh (by decide) h2), et, eo]
    simp

/-! ### Single characters -/

theorem lex_opchar {c : UInt8} {r : Bytes} (hc : isOp c = true) (hs : isSelf c = true) (hr : ∀ c, r.head? = some c → isOp c = false) :
    lex (c :: r) = (lex r).map' (.chr c :: ·) := by
  apply lex_some
  have hne : ∀ b : UInt8, isOp b = true → r.head? ≠ some b := fun b hb h => by rw [hr b h] at hb; cases hb
  rw [step_op hc (fun h => hne 45 (by decide) h.2) (fun h => hne 42 (by decide) h.2)]
  have et := tw_op (u := [c]) (by simpa using hc) hr
  simp only [List.cons_append, List.nil_append] at et
  rw [et]
  have eo : opText [c] = [c] := by
    unfold opText
    have : beforeComment [c] = [c] := by simp [beforeComment]
    rw [this]; simp
  unfold operator
  rw [eo]
  simp [hs]

set_option synthInstance.maxSize 2000 in
set_option synthInstance.maxHeartbeats 200000 in
theorem other_facts : ∀ c : UInt8, c ∈ marks ++ signs → isOp c = false → isSpace c = false ∧ c ≠ 45 ∧ c ≠ 47 ∧ c ≠ 39 ∧ ¬ (c = 98 ∨ c = 66) ∧ ¬ (c = 120 ∨ c = 88) ∧
    ¬ (c = 110 ∨ c = 78) ∧ ¬ (c = 101 ∨ c = 69) ∧ ¬ (c = 117 ∨ c = 85) ∧ c ≠ 36 ∧ c ≠ 34 ∧ isDigit c = false ∧ identStart c = false := by
  apply all_bytes; decide +kernel

theorem lex_single {c : UInt8} {r : Bytes} (hm : c ∈ marks ++ signs) (ho : isOp c = false)
    (h58 : c = 58 → r.head? ≠ some 58 ∧ r.head? ≠ some 61) (h46 : c = 46 → r.head? ≠ some 46 ∧ (r.head?).any isDigit = false) :
    lex (c :: r) = (lex r).map' (.chr c :: ·) := by
  obtain ⟨h1, h2, h3, h4, h5, h6, h7, h8, h9, h10, h11, h12, h13⟩ := other_facts c hm ho
  apply lex_some
  unfold step
  refine (if_neg (by simp [h1])).trans <| (if_neg (n h2)).trans <| (if_neg (n h3)).trans <|
      (if_neg h4).trans <| (if_neg (n h5)).trans <| (if_neg (n h6)).trans <|
      (if_neg (n h7)).trans <| (if_neg (n h8)).trans <| (if_neg (n h9)).trans <|
      (if_neg h10).trans <| (if_neg h11).trans <| (if_neg fun h => (h58 h.1).1 h.2).trans <| (if_neg fun h => (h46 h.1).1 h.2).trans <|
      (if_neg fun h => (h58 h.1).2 h.2).trans <| (if_neg ?_).trans <| (if_neg (by simp [ho])).trans (if_neg (by simp [h13]))
  rintro (h | h)
  · rw [h12] at h; cases h
  · have := (h46 h.1).2; rw [h.2] at this; cases this

theorem lex_mark {c : UInt8} (r : Bytes) (hm : c ∈ marks) : lex (c :: r) = (lex r).map' (.chr c :: ·) := by
  have : ∀ c : UInt8, c ∈ marks → isOp c = false ∧ c ≠ 58 ∧ c ≠ 46 := by apply all_bytes; decide +kernel
  obtain ⟨h1, h2, h3⟩ := this c hm
  exact lex_single (by simp [hm]) h1 (fun h => absurd h h2) (fun h => absurd h h3)

theorem lex_typecast (r : Bytes) : lex ([58, 58] ++ r) = (lex r).map' (.typecast :: ·) := by
  apply lex_some
  unfold step
  exact (if_neg (by decide)).trans <| (if_neg (n (by decide))).trans <| (if_neg (n (by decide))).trans <|
      (if_neg (by decide)).trans <| (if_neg (n (by decide))).trans <| (if_neg (n (by decide))).trans <|
      (if_neg (n (by decide))).trans <| (if_neg (n (by decide))).trans <| (if_neg (n (by decide))).trans <|
      (if_neg (by decide)).trans <| (if_neg (by decide)).trans (if_pos ⟨rfl, rfl⟩)

theorem lex_dotDot (r : Bytes) : lex ([46, 46] ++ r) = (lex r).map' (.dotDot :: ·) := by
  apply lex_some
  unfold step
  exact (if_neg (by decide)).trans <| (if_neg (n (by decide))).trans <| (if_neg (n (by decide))).trans <|
      (if_neg (by decide)).trans <| (if_neg (n (by decide))).trans <| (if_neg (n (by decide))).trans <|
      (if_neg (n (by decide))).trans <| (if_neg (n (by decide))).trans <| (if_neg (n (by decide))).trans <|
      (if_neg (by decide)).trans <| (if_neg (by decide)).trans <| (if_neg (n (by decide))).trans (if_pos ⟨rfl, rfl⟩)

theorem lex_colonEquals (r : Bytes) : lex ([58, 61] ++ r) = (lex r).map' (.colonEquals :: ·) := by
  apply lex_some
  unfold step
  exact (if_neg (by decide)).trans <| (if_neg (n (by decide))).trans <| (if_neg (n (by decide))).trans <|
      (if_neg (by decide)).trans <| (if_neg (n (by decide))).trans <| (if_neg (n (by decide))).trans <|
      (if_neg (n (by decide))).trans <| (if_neg (n (by decide))).trans <| (if_neg (n (by decide))).trans <|
      (if_neg (by decide)).trans <| (if_neg (by decide)).trans <| (if_neg fun h => absurd h.2 (by simp)).trans <|
      (if_neg (n (by decide))).trans (if_pos ⟨rfl, rfl⟩)

/-! ### Comments -/

theorem comment_inside {s : Bytes} (h : Inside s) : ∀ (depth : Nat) (r : Bytes),
    comment depth (s ++ 42 :: 47 :: r) = if depth = 0 then .ok r else comment (depth - 1) r := by
  induction h with
  | nil =>
    intro depth r
    rw [List.nil_append, comment_cons, if_neg (by decide), if_pos ⟨rfl, rfl⟩]
  | byte c b h1 h2 _ ih =>
    intro depth r
    obtain ⟨d, t, e⟩ : ∃ d t, b ++ 42 :: 47 :: r = d :: t := by cases b <;> exact ⟨_, _, rfl⟩
    have hd : (b ++ [42]).head? = some d := by
      cases b with
      | nil => simp at e ⊢; exact e.1
      | cons x b => simp at e ⊢; exact e.1
    have hb : ∀ x, d = x → x ≠ 42 → b.head? = some x := by
      rintro x rfl hx
      cases b with
      | nil => simp at e; exact absurd e.1.symm hx
      | cons y b => simp at e ⊢; exact e.1
    rw [List.cons_append, e, comment_cons, if_neg, if_neg, ← e, ih]
    · rintro ⟨rfl, h⟩; exact h2 ⟨rfl, hb 47 h (by decide)⟩
    · rintro ⟨rfl, h⟩; exact h1 ⟨rfl, by rw [hd, h]⟩
  | nested a b _ _ iha ihb =>
    intro depth r
    have e : [47, 42] ++ a ++ [42, 47] ++ b ++ 42 :: 47 :: r = 47 :: 42 :: (a ++ 42 :: 47 :: (b ++ 42 :: 47 :: r)) := by simp
    rw [e, comment_cons, if_pos ⟨rfl, rfl⟩, iha, if_neg (by omega), Nat.add_sub_cancel, ihb]

theorem lex_comment {s : Bytes} (h : Inside s) (r : Bytes) : lex ([47, 42] ++ s ++ [42, 47] ++ r) = lex r := by
  have e : [47, 42] ++ s ++ [42, 47] ++ r = 47 :: 42 :: (s ++ 42 :: 47 :: r) := by simp
  rw [e]
  apply lex_skip
  rw [step_comment, comment_inside h, if_pos rfl]; rfl

end Verif.Lex
