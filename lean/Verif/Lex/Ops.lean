import Verif.Lex.Escapes
/-! Operators with a sign or a comment right behind them. -/
namespace Verif.Lex
open Verif

theorem group1 : ∀ c : UInt8, c ∈ ([43, 45, 42, 47, 60, 62, 61] : Bytes) → isOp c = true ∧ isSelf c = true ∧ isSpecialOp c = false := by
  apply all_bytes; decide +kernel

theorem lex_run {t : Bytes} {u : Bytes} {k : Tok} {r : Bytes} (hop : ∀ c ∈ t, isOp c = true) (hr : ∀ c, r.head? = some c → isOp c = false)
    (h1 : ¬ [45, 45] <+: t) (h2 : ¬ [47, 42] <+: t) (hne : t ≠ []) (ho : operator t = .ok (k, u)) (hu : u <+: t) :
    ∃ t', t = u ++ t' ∧ lex (t ++ r) = (lex (t' ++ r)).map' (k :: ·) := by
  obtain ⟨t', rfl⟩ := hu
  refine ⟨t', rfl, ?_⟩
  have et := tw_op hop hr
  obtain ⟨c, y, e⟩ : ∃ c y, u ++ t' = c :: y := by
    cases h : u ++ t' with
    | nil => exact absurd h hne
    | cons c y => exact ⟨c, y, rfl⟩
  have hh : ∀ {a b : UInt8}, isOp b = true → ¬ [a, b] <+: u ++ t' → ¬ (c = a ∧ (y ++ r).head? = some b) := by
    rintro a b hb hi ⟨rfl, hh⟩
    cases y with
    | nil => have := hr b (by simpa using hh); rw [hb] at this; cases this
    | cons d y =>
      simp only [List.cons_append, List.head?_cons, Option.some.injEq] at hh; subst hh
      exact hi ⟨y, by rw [e]; simp⟩
  have hc : isOp c = true := hop c (by rw [e]; simp)
  have hd : (u ++ t' ++ r).drop u.length = t' ++ r := by rw [List.append_assoc]; exact List.drop_left
  rw [e, List.cons_append] at et hd ⊢
  apply lex_some
  rw [step_op hc (hh (by decide) h1) (hh (by decide) h2), et, ← e, ho]
  simp only [Res.map'_ok]
  rw [hd]

theorem stripPM_eq {u w : Bytes} (hne : u ≠ []) (hw : ∀ c ∈ w, isPM c = true) (hl : u.length = 1 ∨ ∀ c, u.getLast? = some c → isPM c = false) :
    stripPM (u ++ w) = u := by
  cases u with
  | nil => exact absurd rfl hne
  | cons c u =>
    rw [List.cons_append, stripPM, List.reverse_append, List.dropWhile_append_of_pos (by simpa using hw)]
    congr 1
    cases hu : u.reverse with
    | nil => rw [List.reverse_eq_nil_iff.mp hu]; rfl
    | cons d v =>
      have hd : isPM d = false := by
        rcases hl with hl | hl
        · have : u = [] := by simpa using hl
          rw [this] at hu; simp at hu
        · apply hl
          have : u = v.reverse ++ [d] := by
            have := congrArg List.reverse hu; simpa using this
          rw [this, ← List.cons_append, List.getLast?_concat]
      rw [List.dropWhile_cons_of_neg (by simp [hd]), ← hu, List.reverse_reverse]

theorem lex_sign {u w r : Bytes} (hne : u ≠ []) (hu : ∀ c ∈ u, c ∈ ([43, 45, 42, 47, 60, 62, 61] : Bytes)) (hlen : u.length < 64)
    (hl : u.length = 1 ∨ (u.getLast? ≠ some 43 ∧ u.getLast? ≠ some 45)) (hw : ∀ c ∈ w, c = 43 ∨ c = 45) (hwn : w ≠ [])
    (h1 : ¬ [45, 45] <:+: u ++ w) (h2 : ¬ [47, 42] <:+: u ++ w) (hr : ∀ c, r.head? = some c → isOp c = false) :
    lex (u ++ w ++ r) = (lex (w ++ r)).map' (operatorToken u :: ·) := by
  have hw1 : ∀ c ∈ w, c ∈ ([43, 45, 42, 47, 60, 62, 61] : Bytes) := by
    intro c hc; rcases hw c hc with rfl | rfl <;> decide
  have hall : ∀ c ∈ u ++ w, c ∈ ([43, 45, 42, 47, 60, 62, 61] : Bytes) := by
    intro c hc
    rcases List.mem_append.mp hc with h | h
    · exact hu c h
    · exact hw1 c h
  have hl' : u.length = 1 ∨ ∀ c, u.getLast? = some c → isPM c = false := by
    refine hl.imp_right fun h c hc => ?_
    cases hp : isPM c with
    | false => rfl
    | true =>
      rcases (pm_iff c).mp hp with rfl | rfl
      · exact absurd hc h.1
      · exact absurd hc h.2
  have hopt : opText (u ++ w) = u := by
    unfold opText
    rw [beforeComment_self h1 h2]
    simp only
    rw [if_pos, stripPM_eq hne (fun c hc => (pm_iff c).mpr (hw c hc)) hl']
    refine ⟨?_, ?_, ?_⟩
    · have h1 := List.length_pos_iff.mpr hne
      have h2 := List.length_pos_iff.mpr hwn
      simp; omega
    · rw [List.getLast?_append_of_ne_nil _ hwn]
      cases hg : w.getLast? with
      | none => exact absurd (List.getLast?_eq_none_iff.mp hg) hwn
      | some c => simpa using (pm_iff c).mpr (hw c (List.mem_of_getLast? hg))
    · rw [List.any_eq_true]
      rintro ⟨c, hc, hs⟩
      rw [(group1 c (hall c hc)).2.2] at hs; cases hs
  have ho : operator (u ++ w) = .ok (operatorToken u, u) := by
    unfold operator
    rw [hopt]
    simp only
    cases u with
    | nil => exact absurd rfl hne
    | cons c u =>
      cases u with
      | nil => simp only [(group1 c (hu c (by simp))).2.1, if_true]; rfl
      | cons d u =>
        simp only
        unfold NAMEDATALEN
        rw [if_neg (by omega), if_neg]
        · rfl
        · intro h
          simp only [List.cons.injEq] at h
          have := hu c (by simp)
          rw [h.1] at this; revert this; decide
  obtain ⟨t', e, h⟩ := lex_run (fun c hc => (group1 c (hall c hc)).1) hr (fun h => h1 h.isInfix) (fun h => h2 h.isInfix) (by simp [hne]) ho
    (List.prefix_append u w)
  rw [h, List.append_cancel_left e]

theorem beforeComment_stop {a b : UInt8} (hab : (a = 47 ∧ b = 42) ∨ (a = 45 ∧ b = 45)) (x : Bytes) : ∀ {u : Bytes}, ¬ [45, 45] <:+: u ++ [a] → ¬ [47, 42] <:+: u →
    beforeComment (u ++ a :: b :: x) = u
  | [], _, _ => by
    rw [List.nil_append, beforeComment, if_pos]
    rcases hab with ⟨rfl, rfl⟩ | ⟨rfl, rfl⟩ <;> simp
  | c :: u, h1, h2 => by
    have ih := beforeComment_stop hab x (u := u) (fun h => h1 (h.trans (List.suffix_cons c (u ++ [a])).isInfix))
      (fun h => h2 (h.trans (List.suffix_cons c u).isInfix))
    rw [List.cons_append, beforeComment, if_neg, ih]
    rintro (⟨rfl, h⟩ | ⟨rfl, h⟩)
    · cases u with
      | nil =>
        simp only [List.nil_append, List.head?_cons, Option.some.injEq] at h
        subst h
        rcases hab with ⟨h, -⟩ | ⟨h, -⟩ <;> exact absurd h (by decide)
      | cons d u => simp only [List.cons_append, List.head?_cons, Option.some.injEq] at h; subst h; exact h2 ⟨[], u, by simp⟩
    · cases u with
      | nil =>
        simp only [List.nil_append, List.head?_cons, Option.some.injEq] at h
        subst h
        exact h1 ⟨[], [], by simp⟩
      | cons d u => simp only [List.cons_append, List.head?_cons, Option.some.injEq] at h; subst h; exact h1 ⟨[], u ++ [a], by simp⟩

theorem lex_op_comment {u r : Bytes} {a b : UInt8} (hu : Operator u) (hab : (a = 47 ∧ b = 42) ∨ (a = 45 ∧ b = 45)) (hlast : a = 45 → u.getLast? ≠ some 45) :
    lex (u ++ a :: b :: r) = (lex (a :: b :: r)).map' (.op (if u = [33, 61] then [60, 62] else u) :: ·) := by
  have eo := operator_self hu
  have eot := opText_self hu
  obtain ⟨hne, hop, h1, h2, hl, hs, hpm⟩ := hu
  have hop' : ∀ c ∈ u, isOp c = true := fun c hc => isOp_mem c (hop c hc)
  have ha : isOp a = true ∧ isOp b = true := by rcases hab with ⟨rfl, rfl⟩ | ⟨rfl, rfl⟩ <;> decide
  have h1' : ¬ [45, 45] <:+: u ++ [a] := by
    intro h
    rw [List.infix_concat_iff] at h
    rcases h with h | h
    · obtain ⟨p, hp⟩ := h
      have e1 := congrArg List.getLast? hp
      have e2 : u = p ++ [45] := by
        have := congrArg List.dropLast hp
        simpa [List.dropLast_append_of_ne_nil] using this.symm
      have : a = 45 := by
        rw [List.getLast?_append_of_ne_nil _ (by simp)] at e1; simpa using e1.symm
      exact hlast this (by rw [e2]; simp)
    · exact h1 h
  have hb := beforeComment_stop hab (r.takeWhile isOp) (u := u) h1' h2
  have hself := beforeComment_self h1 h2
  have ho : operator (u ++ a :: b :: r.takeWhile isOp) = operator u := by
    have : opText (u ++ a :: b :: r.takeWhile isOp) = opText u := by
      unfold opText; rw [hb, hself]
    unfold operator; rw [this]
  obtain ⟨t', e, h⟩ := lex_run (t := u ++ a :: b :: r.takeWhile isOp) (r := r.dropWhile isOp)
    (by
      intro c hc
      simp only [List.mem_append, List.mem_cons] at hc
      rcases hc with hc | rfl | rfl | hc
      · exact hop' c hc
      · exact ha.1
      · exact ha.2
      · exact List.mem_takeWhile_imp hc)
    (by
      intro c hc
      cases hd : r.dropWhile isOp with
      | nil => rw [hd] at hc; simp at hc
      | cons d v =>
        rw [hd] at hc
        simp only [List.head?_cons, Option.some.injEq] at hc
        have := List.head?_dropWhile_not isOp r
        rw [hd] at this
        subst hc; simpa using this)
    (fun hp => by
      obtain ⟨c, v, rfl⟩ : ∃ c v, u = c :: v := by cases u with
        | nil => exact absurd rfl hne
        | cons c v => exact ⟨c, v, rfl⟩
      obtain ⟨z, hz⟩ := hp
      cases v with
      | nil =>
        simp only [List.cons_append, List.nil_append, List.cons.injEq] at hz
        obtain ⟨rfl, rfl, -⟩ := hz
        exact h1' ⟨[], [], by simp⟩
      | cons d v =>
        simp only [List.cons_append, List.cons.injEq] at hz
        obtain ⟨rfl, rfl, -⟩ := hz
        exact h1 ⟨[], v, by simp⟩)
    (fun hp => by
      obtain ⟨c, v, rfl⟩ : ∃ c v, u = c :: v := by cases u with
        | nil => exact absurd rfl hne
        | cons c v => exact ⟨c, v, rfl⟩
      obtain ⟨z, hz⟩ := hp
      cases v with
      | nil =>
        simp only [List.cons_append, List.nil_append, List.cons.injEq] at hz
        obtain ⟨rfl, rfl, -⟩ := hz
        rcases hab with ⟨h, -⟩ | ⟨h, -⟩ <;> exact absurd h (by decide)
      | cons d v =>
        simp only [List.cons_append, List.cons.injEq] at hz
        obtain ⟨rfl, rfl, -⟩ := hz
        exact h2 ⟨[], v, by simp⟩)
    (by simp) (ho.trans eo) (List.prefix_append u _)
  have e' := List.append_cancel_left e
  subst e'
  have hs : ∀ y : Bytes, y ++ a :: b :: r.takeWhile isOp ++ r.dropWhile isOp = y ++ a :: b :: r := by
    intro y; simp [List.takeWhile_append_dropWhile]
  rw [hs] at h
  rw [h]
  have := hs []
  simp only [List.nil_append] at this
  rw [this]

end Verif.Lex
