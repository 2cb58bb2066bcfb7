import Verif.Lex.Lemmas
/-! The scanner always comes to an end, and each rule takes something. -/
namespace Verif.Lex
open Verif
open Verif.Text (natOf isDigit hexDigit encodeUtf8)

/-- A result with the property, or an error. -/
def Fine {α : Type} (x : Res α) (P : α → Prop) : Prop := (∃ a, x = .ok a ∧ P a) ∨ x = .throws

theorem Fine.map {α β : Type} {x : Res α} {P : α → Prop} {Q : β → Prop} {f : α → β} (h : Fine x P) (hf : ∀ a, P a → Q (f a)) :
    Fine (x.map' f) Q := by
  rcases h with ⟨a, rfl, ha⟩ | rfl
  · exact .inl ⟨f a, rfl, hf a ha⟩
  · exact .inr rfl

theorem Fine.ok {α : Type} {P : α → Prop} {a : α} (h : P a) : Fine (.ok a) P := .inl ⟨a, rfl, h⟩
theorem Fine.ite {α : Type} {P : α → Prop} {p : Prop} [Decidable p] {a b : Res α} (h1 : p → Fine a P) (h2 : ¬ p → Fine b P) :
    Fine (if p then a else b) P := by
  by_cases h : p
  · rw [if_pos h]; exact h1 h
  · rw [if_neg h]; exact h2 h
theorem Fine.throws {α : Type} {P : α → Prop} : Fine .throws P := .inr rfl

theorem quoted_fine : ∀ (n : Nat) (s : Bytes), s.length ≤ n → Fine (quoted s) fun p => p.2.length ≤ s.length
  | _, [], _ => by rw [quoted]; exact .throws
  | 0, _ :: _, h => by simp at h
  | n + 1, c :: r, h => by
    have hr : r.length ≤ n := by simpa using h
    by_cases hc : c = 39
    · subst hc
      by_cases h2 : r.head? = some 39
      · cases r with
        | nil => simp at h2
        | cons d r =>
          simp only [List.head?_cons, Option.some.injEq] at h2; subst h2
          rw [quoted_two]
          exact (quoted_fine n r (by simp at hr; omega)).map fun p hp => by simp; omega
      · cases hk : cont false false r with
        | none => rw [quoted_stop h2 hk]; exact .ok (by simp)
        | some r' =>
          rw [quoted_go h2 hk]
          have := cont_length _ _ _ _ hk
          rcases quoted_fine n r' (by omega) with ⟨p, hp, h⟩ | h
          · exact .inl ⟨p, hp, by simp; omega⟩
          · exact .inr h
    · rw [quoted_other r hc]
      exact (quoted_fine n r hr).map fun p hp => by simp; omega

theorem bits_fine : ∀ (n : Nat) (s : Bytes), s.length ≤ n → Fine (bits s) fun p => p.2.length ≤ s.length
  | _, [], _ => by rw [bits]; exact .throws
  | 0, _ :: _, h => by simp at h
  | n + 1, c :: r, h => by
    have hr : r.length ≤ n := by simpa using h
    rw [bits]
    split
    · split
      · rename_i r' hk
        have := cont_length _ _ _ _ hk
        rcases bits_fine n r' (by omega) with ⟨p, hp, h⟩ | h
        · exact .inl ⟨p, hp, by simp; omega⟩
        · exact .inr h
      · exact .ok (by simp)
    · exact (bits_fine n r hr).map fun p hp => by simp; omega

theorem hexFold_some : ∀ (d : Bytes) (n : Nat), (∀ c ∈ d, (hexDigit c).isSome = true) →
    ∃ m, d.foldl (fun n c => match n, hexDigit c with
    | some n, some d => some (16 * n + d)
    | _, _ => none) (some n) = some m
  | [], n, _ => ⟨n, rfl⟩
  | c :: d, n, h => by
    obtain ⟨x, hx⟩ := Option.isSome_iff_exists.mp (h c (by simp))
    rw [List.foldl_cons, hx]
    exact hexFold_some d _ fun e he => h e (by simp [he])

theorem hexOf_some (d : Bytes) (h : ∀ c ∈ d, (hexDigit c).isSome = true) : ∃ n, hexOf d = some n := by
  cases d with
  | nil => exact ⟨0, rfl⟩
  | cons c d => exact hexFold_some (c :: d) 0 h

theorem unicode_length {s r : Bytes} {n : Nat} (h : unicode s = some (n, r)) : r.length < s.length := by
  unfold unicode at h
  split at h
  · split at h
    · cases h
    · obtain ⟨a, -, ha⟩ := Option.map_eq_some_iff.mp h
      cases ha; simp; omega
  · split at h
    · cases h
    · obtain ⟨a, -, ha⟩ := Option.map_eq_some_iff.mp h
      cases ha; simp; omega
  · cases h

theorem addUnicode_fine (n : Nat) : Fine (addUnicode n) fun _ => True := by
  unfold addUnicode; split
  · exact .throws
  · exact .ok trivial

theorem escape_fine (s : Bytes) : Fine (escape s) fun p => p.2.length ≤ s.length := by
  cases s with
  | nil => exact .throws
  | cons c r =>
    rw [escape]
    split
    · exact .ok (by simp)
    · split
      · simp only
        split
        · exact .ok (by simp)
        · obtain ⟨n, hn⟩ := hexOf_some ((r.take 2).takeWhile fun c => (hexDigit c).isSome) (fun c hc => by
            exact List.mem_takeWhile_imp (p := fun c => (hexDigit c).isSome) hc)
          rw [hn]; exact .ok (by simp; omega)
      · split
        · split
          · exact .throws
          · rename_i n r1 hu
            have h1 := unicode_length hu
            split
            · split
              · rename_i r2
                split
                · rename_i m r3 hu2
                  have h2 := unicode_length hu2
                  split
                  · exact (addUnicode_fine _).map fun _ _ => by simp at h1 ⊢; omega
                  · exact .throws
                · exact .throws
              · exact .throws
            · split
              · exact .throws
              · exact (addUnicode_fine _).map fun _ _ => by simp at h1 ⊢; omega
        · exact .ok (by simp)

theorem equoted_fine : ∀ (n : Nat) (s : Bytes), s.length ≤ n → Fine (equoted s) fun p => p.2.length ≤ s.length
  | _, [], _ => by rw [equoted]; exact .throws
  | 0, _ :: _, h => by simp at h
  | n + 1, c :: r, h => by
    have hr : r.length ≤ n := by simpa using h
    rw [equoted]
    split
    · split
      · exact (equoted_fine n r.tail (by simp; omega)).map fun p hp => by simp at hp ⊢; omega
      · split
        · rename_i r' hk
          have := cont_length _ _ _ _ hk
          rcases equoted_fine n r' (by omega) with ⟨p, hp, h⟩ | h
          · exact .inl ⟨p, hp, by simp; omega⟩
          · exact .inr h
        · exact .ok (by simp)
    · split
      · rcases escape_fine r with ⟨⟨b, r'⟩, hp, hl⟩ | h
        · rw [hp]
          simp only at hl ⊢
          rw [dif_pos hl]
          exact (equoted_fine n r' (by omega)).map fun p hp => by simp; omega
        · rw [h]; exact .throws
      · exact (equoted_fine n r hr).map fun p hp => by simp; omega

theorem dollar_fine (start : Bytes) : ∀ s : Bytes, Fine (dollar start s) fun p => p.2.length ≤ s.length
  | [] => .throws
  | c :: r => by
    unfold dollar
    split
    · exact .ok (by simp)
    · exact (dollar_fine start r).map fun p hp => by simp; omega

theorem dquoted_fine : ∀ s : Bytes, Fine (dquoted s) fun p => p.2.length ≤ s.length
  | [] => .throws
  | c :: r => by
    unfold dquoted
    split
    · split
      · exact (dquoted_fine _).map fun p hp => by simp; omega
      · exact .ok (by simp)
    · exact (dquoted_fine r).map fun p hp => by simp; omega

theorem comment_cons (depth : Nat) (c d : UInt8) (r : Bytes) : comment depth (c :: d :: r) =
    if c = 47 ∧ d = 42 then comment (depth + 1) r
    else if c = 42 ∧ d = 47 then (if depth = 0 then .ok r else comment (depth - 1) r)
    else comment depth (d :: r) := by
  conv_lhs => unfold comment

theorem comment_fine : ∀ (n : Nat) (s : Bytes) (depth : Nat), s.length ≤ n → Fine (comment depth s) fun r => r.length ≤ s.length
  | _, [], _, _ => .throws
  | _, [_], _, _ => by unfold comment; exact .throws
  | 0, _ :: _ :: _, _, h => by simp at h
  | n + 1, c :: d :: r, depth, hn => by
    simp only [List.length_cons] at hn
    have weaken : ∀ {x : Res Bytes} {a b : Nat}, a ≤ b → Fine x (fun r => r.length ≤ a) → Fine x (fun r => r.length ≤ b) := by
      intro x a b hab h
      rcases h with ⟨p, hp, h⟩ | h
      · exact .inl ⟨p, hp, by omega⟩
      · exact .inr h
    rw [comment_cons]
    split
    · exact weaken (by simp; omega) (comment_fine n r (depth + 1) (by omega))
    · split
      · split
        · exact .ok (by simp; omega)
        · exact weaken (by simp; omega) (comment_fine n r (depth - 1) (by omega))
      · exact weaken (by simp) (comment_fine n (d :: r) depth (by simp; omega))

theorem dropWhile_le {α : Type} (p : α → Bool) (l : List α) : (l.dropWhile p).length ≤ l.length :=
  (List.dropWhile_sublist p).length_le

/-- A number takes at least its first character. -/
theorem number_short (c : UInt8) (r : Bytes) (h : isDigit c = true ∨ c = 46) : (number (c :: r)).2.length ≤ r.length := by
  have hd : isDigit c = true → ((c :: r).dropWhile isDigit).length ≤ r.length := by
    intro hc; rw [List.dropWhile_cons_of_pos hc]; exact dropWhile_le _ _
  unfold number
  simp only
  split
  · rename_i hcond
    have ht : (((c :: r).dropWhile isDigit).tail).length ≤ r.length := by
      rw [List.length_tail]
      have := dropWhile_le isDigit (c :: r)
      simp at this; omega
    have h2 := dropWhile_le isDigit ((c :: r).dropWhile isDigit).tail
    split
    · simp only [List.length_drop]; omega
    · simp only; omega
  · rename_i hcond
    have hdc : isDigit c = true := by
      rcases h with h | rfl
      · exact h
      · exfalso
        apply hcond
        have h46 : isDigit 46 = false := by decide
        simp [List.dropWhile, List.takeWhile, h46]
    have := hd hdc
    split
    · simp only [List.length_drop]; omega
    · simp only; omega

theorem beforeComment_le : ∀ t : Bytes, (beforeComment t).length ≤ t.length
  | [] => by simp [beforeComment]
  | c :: r => by unfold beforeComment; split <;> simp; exact beforeComment_le r

theorem stripPM_le (t : Bytes) : (stripPM t).length ≤ t.length := by
  cases t with
  | nil => simp [stripPM]
  | cons c r =>
    simp only [stripPM, List.length_cons, List.length_reverse]
    have := dropWhile_le isPM r.reverse
    simp at this; omega

theorem opText_ne {c : UInt8} {r : Bytes} (h1 : ¬ (c = 45 ∧ r.head? = some 45)) (h2 : ¬ (c = 47 ∧ r.head? = some 42)) :
    ∃ u, opText (c :: r) = c :: u := by
  have e : beforeComment (c :: r) = c :: beforeComment r := by rw [beforeComment, if_neg (by tauto)]
  unfold opText
  rw [e]
  simp only
  split
  · exact ⟨_, rfl⟩
  · exact ⟨_, rfl⟩

theorem operator_fine {c : UInt8} {r : Bytes} (h1 : ¬ (c = 45 ∧ r.head? = some 45)) (h2 : ¬ (c = 47 ∧ r.head? = some 42)) :
    Fine (operator (c :: r)) fun p => 0 < p.2.length := by
  obtain ⟨u, hu⟩ := opText_ne h1 h2
  unfold operator
  rw [hu]
  simp only
  cases u with
  | nil => simp only; split <;> exact .ok (by simp)
  | cons d u =>
    simp only
    split
    · exact .throws
    · split <;> exact .ok (by simp)

theorem tw_head {p : UInt8 → Bool} {c : UInt8} {r : Bytes} {k : UInt8} (hp : p c = true) (hk : p k = true) :
    (((c :: r).takeWhile p).tail).head? = some k ↔ r.head? = some k := by
  rw [List.takeWhile_cons_of_pos hp, List.tail_cons]
  cases r with
  | nil => simp
  | cons d r =>
    by_cases hd : p d = true
    · rw [List.takeWhile_cons_of_pos hd]; simp
    · rw [List.takeWhile_cons_of_neg hd]
      simp only [List.head?_nil, List.head?_cons, Option.some.injEq, reduceCtorEq, false_iff]
      rintro rfl; exact hd hk

theorem step_fine (c : UInt8) (r : Bytes) : Fine (step c r) fun p => p.2.length ≤ r.length := by
  unfold step
  refine Fine.ite (fun _ => Fine.ok (by simp)) fun hsp => ?_
  refine Fine.ite (fun _ => Fine.ok (dropWhile_le _ _)) fun h45 => ?_
  refine Fine.ite (fun _ => (comment_fine _ r.tail 0 le_rfl).map fun p hp => by simp at hp; simp; omega) fun h47 => ?_
  refine Fine.ite (fun _ => (quoted_fine _ r le_rfl).map fun p hp => hp) fun _ => ?_
  refine Fine.ite (fun _ => (bits_fine _ r.tail le_rfl).map fun p hp => by simp at hp ⊢; omega) fun _ => ?_
  refine Fine.ite (fun _ => (bits_fine _ r.tail le_rfl).map fun p hp => by simp at hp ⊢; omega) fun _ => ?_
  refine Fine.ite (fun _ => ?_) fun _ => ?_
  · generalize lookup [110, 99, 104, 97, 114] = k
    cases k with
    | none => exact Fine.ok (by simp)
    | some k => exact Fine.ok (by simp)
  refine Fine.ite (fun _ => (equoted_fine _ r.tail le_rfl).map fun p hp => by simp at hp ⊢; omega) fun _ => ?_
  refine Fine.ite (fun _ => Fine.ite (fun _ => Fine.throws) fun _ => Fine.ok (by simp)) fun _ => ?_
  refine Fine.ite (fun _ => ?_) fun _ => ?_
  · cases delim (c :: r) with
    | some d => exact (dollar_fine _ _).map fun p hp => by simp at hp ⊢; omega
    | none => exact Fine.ite (fun _ => Fine.ok (by simp)) fun _ => Fine.ok (dropWhile_le _ _)
  refine Fine.ite (fun _ => ?_) fun _ => ?_
  · rcases dquoted_fine r with ⟨p, hp, hl⟩ | hp
    · rw [hp, Res.bind_ok]
      exact Fine.ite (fun _ => Fine.throws) fun _ => Fine.ok hl
    · rw [hp]; exact Fine.throws
  refine Fine.ite (fun _ => Fine.ok (by simp)) fun _ => ?_
  refine Fine.ite (fun _ => Fine.ok (by simp)) fun _ => ?_
  refine Fine.ite (fun _ => Fine.ok (by simp)) fun _ => ?_
  refine Fine.ite (fun hn => Fine.ok (number_short c r (hn.imp_right And.left))) fun _ => ?_
  refine Fine.ite (fun ho => ?_) fun _ => ?_
  · have e : (c :: r).takeWhile isOp = c :: ((c :: r).takeWhile isOp).tail := by rw [List.takeWhile_cons_of_pos ho]; rfl
    have hf : Fine (operator ((c :: r).takeWhile isOp)) fun p => 0 < p.2.length := by
      rw [e]
      apply operator_fine
      · rw [tw_head ho (by decide)]; exact h45
      · rw [tw_head ho (by decide)]; exact h47
    exact hf.map fun p hp => by simp; omega
  refine Fine.ite (fun hi => ?_) fun _ => Fine.ok (by simp)
  have hi' : identCont c = true := by simp [identCont, hi]
  have : ((c :: r).dropWhile identCont).length ≤ r.length := by
    rw [List.dropWhile_cons_of_pos hi']; exact dropWhile_le _ _
  generalize lookup ((c :: r).takeWhile identCont) = k
  cases k with
  | none => exact Fine.ok this
  | some k => exact Fine.ok this

theorem lex_cons (c : UInt8) (r : Bytes) : lex (c :: r) = (step c r).bind fun p => (lex p.2).map' (consOpt p.1) := by
  rw [lex]
  rcases step_fine c r with ⟨⟨t, r'⟩, hp, hl⟩ | h
  · rw [hp]; simp only at hl ⊢; rw [dif_pos hl]; rfl
  · rw [h]; rfl

theorem lex_fine : ∀ (n : Nat) (s : Bytes), s.length ≤ n → Fine (lex s) fun _ => True
  | _, [], _ => by rw [lex]; exact .ok trivial
  | 0, _ :: _, h => by simp at h
  | n + 1, c :: r, h => by
    rw [lex_cons]
    rcases step_fine c r with ⟨⟨t, r'⟩, hp, hl⟩ | h'
    · rw [hp, Res.bind_ok]
      exact (lex_fine n r' (by simp at h hl; omega)).map fun _ _ => trivial
    · rw [h']; exact .throws

end Verif.Lex
