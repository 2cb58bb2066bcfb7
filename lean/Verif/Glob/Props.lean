import Verif.Glob.Spec
/-!
C111: a pattern matches exactly the names it describes.
-/
namespace Verif.Glob

/-! ## Brackets -/

/-- Whether the character is in one of the ranges, decided. -/
def among (ms : List (Ch × Ch)) (c : Ch) : Bool := ms.any fun r => decide (r.1 ≤ c) && decide (c ≤ r.2)

theorem among_iff (ms : List (Ch × Ch)) (c : Ch) : among ms c = true ↔ Among ms c := by
  unfold among Among
  rw [List.any_eq_true]
  constructor
  · rintro ⟨r, h1, h2⟩
    rw [Bool.and_eq_true, decide_eq_true_eq, decide_eq_true_eq] at h2
    exact ⟨r, h1, h2⟩
  · rintro ⟨r, h1, h2⟩
    exact ⟨r, h1, by rw [Bool.and_eq_true, decide_eq_true_eq, decide_eq_true_eq]; exact h2⟩

theorem note_note (invert found a b : Bool) : note invert (note invert found a) b = note invert found (a || b) := by
  revert invert found a b
  decide

theorem note_false (invert found : Bool) : note invert found false = found := by
  unfold note
  simp

theorem eq_range (p c : Ch) : (p == c) = (decide (p ≤ c) && decide (c ≤ p)) := by
  rw [Bool.eq_iff_iff]
  simp only [beq_iff_eq, Bool.and_eq_true, decide_eq_true_eq]
  exact ⟨fun e => e ▸ ⟨Int.le_refl _, Int.le_refl _⟩, fun e => Int.le_antisymm e.1 e.2⟩

theorem not_close {first : Bool} {x : Ch} (h : first = true ∨ x ≠ 93) : ¬ (x = 93 ∧ first = false) := by
  rintro ⟨e1, e2⟩
  rcases h with h | h
  · rw [h] at e2
    exact absurd e2 (by simp)
  · exact h e1

theorem members_complete {first : Bool} {m : List Ch} {ms : List (Ch × Ch)} (h : Members first m ms) (c : Ch) (invert found : Bool) (r : List Ch) :
    (first = true → m ≠ [] ) → members c invert first found (m ++ 93 :: r) = some (note invert found (among ms c), r) := by
  induction h generalizing found with
  | nil =>
    intro _
    show members c invert false found (93 :: r) = _
    rw [show among [] c = false from rfl, note_false]
    cases r with
    | nil => rfl
    | cons x r => unfold members; rw [if_pos ⟨rfl, rfl⟩]
  | @range first lo hi m ms h1 h2 ih =>
    intro _
    show members c invert first found (lo :: 45 :: hi :: (m ++ 93 :: r)) = _
    unfold members
    rw [if_neg (not_close h1), if_pos rfl]
    show members c invert false (note invert found (decide (c ≥ lo) && decide (c ≤ hi))) (m ++ 93 :: r) = _
    rw [ih _ (by simp), note_note]
    rfl
  | @single first x m ms h1 h2 h3 ih =>
    intro _
    have e : ∃ n ps, m ++ 93 :: r = n :: ps ∧ n ≠ 45 := by
      cases m with
      | nil => exact ⟨93, r, rfl, by decide⟩
      | cons y m => exact ⟨y, m ++ 93 :: r, rfl, fun e => h2 (by rw [e]; rfl)⟩
    obtain ⟨n, ps, e, hn⟩ := e
    have e2 := ih (note invert found (x == c)) (by simp)
    show members c invert first found (x :: (m ++ 93 :: r)) = _
    rw [e] at e2 ⊢
    unfold members
    rw [if_neg (not_close h1), if_neg hn, e2, note_note,
      eq_range]
    rfl

theorem members_sound (c : Ch) (invert : Bool) : ∀ (n : Nat) (p : List Ch) (first found b : Bool) (r : List Ch), p.length ≤ n →
    members c invert first found p = some (b, r) →
    ∃ m ms, p = m ++ 93 :: r ∧ Members first m ms ∧ b = note invert found (among ms c) := by
  intro n
  induction n with
  | zero =>
    intro p first found b r hl h
    cases p with
    | nil => exact absurd h (by simp [members])
    | cons x p => exact absurd hl (by simp)
  | succ n ih =>
    intro p first found b r hl h
    match p with
    | [] => exact absurd h (by simp [members])
    | [x] =>
      unfold members at h
      split at h
      · rename_i e
        injection h with h; injection h with h1 h2
        subst h1; subst h2
        rw [e.1, e.2]
        exact ⟨[], [], rfl, .nil, by simp [among, note_false]⟩
      · exact absurd h (by simp)
    | x :: y :: ps =>
      unfold members at h
      split at h
      · rename_i e
        injection h with h; injection h with h1 h2
        subst h1; subst h2
        rw [e.1, e.2]
        exact ⟨[], [], rfl, .nil, by simp [among, note_false]⟩
      · rename_i hx
        have hf : first = true ∨ x ≠ 93 := by
          cases first with
          | true => exact Or.inl rfl
          | false => exact Or.inr fun e => hx ⟨e, rfl⟩
        split at h
        · rename_i hy
          match ps with
          | [] => exact absurd h (by simp)
          | hi :: ps =>
            obtain ⟨m, ms, e1, e2, e3⟩ := ih ps false _ b r (by simp at hl; omega) h
            refine ⟨x :: 45 :: hi :: m, (x, hi) :: ms, by rw [e1, hy]; rfl, .range hf e2, ?_⟩
            rw [e3, note_note]
            rfl
        · rename_i hy
          obtain ⟨m, ms, e1, e2, e3⟩ := ih (y :: ps) false _ b r (by simp at hl ⊢; omega) h
          refine ⟨x :: m, (x, x) :: ms, by rw [e1]; rfl, .single hf ?_ e2, ?_⟩
          · cases m with
            | nil => simp
            | cons z m =>
              injection e1 with e1 _
              subst e1
              intro e
              injection e with e
              exact hy e
          · rw [e3, note_note, eq_range]
            rfl

theorem members_ne {m : List Ch} {ms : List (Ch × Ch)} (h : Members true m ms) : m ≠ [] := by
  cases h <;> simp

/-- A bracket: which characters it takes, and what follows it. -/
theorem bracket_iff (c : Ch) (p r : List Ch) : bracket c p = some (true, r) ↔
    (∃ m ms, p = m ++ 93 :: r ∧ m.head? ≠ some 33 ∧ Members true m ms ∧ Among ms c) ∨
    (∃ m ms, p = 33 :: (m ++ 93 :: r) ∧ Members true m ms ∧ ¬ Among ms c) := by
  constructor
  · intro h
    unfold bracket at h
    split at h
    · exact absurd h (by simp)
    · rename_i x ps
      split at h
      · rename_i e
        obtain ⟨m, ms, e1, e2, e3⟩ := members_sound c true _ ps true true true r (Nat.le_refl _) h
        refine Or.inr ⟨m, ms, by rw [e, e1], e2, ?_⟩
        rw [← among_iff]
        intro e4
        rw [e4] at e3
        exact absurd e3 (by decide)
      · rename_i e
        obtain ⟨m, ms, e1, e2, e3⟩ := members_sound c false _ (x :: ps) true false true r (Nat.le_refl _) h
        refine Or.inl ⟨m, ms, e1, ?_, e2, ?_⟩
        · cases m with
          | nil => simp
          | cons z m =>
            injection e1 with e1 _
            subst e1
            intro e4
            injection e4 with e4
            exact e e4
        · rw [← among_iff]
          cases e4 : among ms c with
          | true => rfl
          | false => rw [e4] at e3; exact absurd e3 (by decide)
  · rintro (⟨m, ms, e, h1, h2, h3⟩ | ⟨m, ms, e, h2, h3⟩)
    · have e2 := members_complete h2 c false false r (fun _ => members_ne h2)
      rw [(among_iff ms c).2 h3] at e2
      cases m with
      | nil => exact absurd rfl (members_ne h2)
      | cons x m =>
        rw [e]
        show (if x = 33 then members c true true true (m ++ 93 :: r) else members c false true false (x :: (m ++ 93 :: r))) = _
        rw [if_neg (fun e => h1 (by rw [e]; rfl))]
        exact e2
    · have e2 := members_complete h2 c true true r (fun _ => members_ne h2)
      have e3 : among ms c = false := by
        cases e4 : among ms c with
        | false => rfl
        | true => exact absurd ((among_iff ms c).1 e4) h3
      rw [e3] at e2
      rw [e]
      exact e2

/-! ## Stars -/

theorem skipStars_head (p : List Ch) : (skipStars p).head? ≠ some 42 := by
  induction p with
  | nil => simp [skipStars]
  | cons c p ih =>
    unfold skipStars
    split
    · exact ih
    · rename_i h
      intro e
      injection e with e
      exact h e

/-- Parts written behind stars. -/
theorem written_skip {p : List Ch} {is : List Item} (h : Written p is) :
    ∃ is2, Written (skipStars p) is2 ∧ ∀ s, Matches is s → ∃ u t, s = u ++ t ∧ Matches is2 t := by
  induction h with
  | star h ih =>
    obtain ⟨is2, h1, h2⟩ := ih
    refine ⟨is2, by simpa [skipStars] using h1, ?_⟩
    intro s hs
    cases hs with
    | star u hs =>
      obtain ⟨v, t, e, ht⟩ := h2 _ hs
      exact ⟨u ++ v, t, by rw [e, List.append_assoc], ht⟩
  | nil => exact ⟨_, .nil, fun s hs => ⟨[], s, rfl, hs⟩⟩
  | any h _ => exact ⟨_, by simpa [skipStars] using Written.any h, fun s hs => ⟨[], s, rfl, hs⟩⟩
  | escaped c h _ => exact ⟨_, by simpa [skipStars] using Written.escaped c h, fun s hs => ⟨[], s, rfl, hs⟩⟩
  | of h1 h2 h3 _ => exact ⟨_, by simpa [skipStars] using Written.of h1 h2 h3, fun s hs => ⟨[], s, rfl, hs⟩⟩
  | notOf h1 h2 _ => exact ⟨_, by simpa [skipStars] using Written.notOf h1 h2, fun s hs => ⟨[], s, rfl, hs⟩⟩
  | plain h1 h2 h3 h4 h5 _ => exact ⟨_, by simpa [skipStars, h1] using Written.plain h1 h2 h3 h4 h5, fun s hs => ⟨[], s, rfl, hs⟩⟩

/-- And stars before parts. -/
theorem skip_written (p : List Ch) {is2 : List Item} (h : Written (skipStars p) is2) :
    ∃ is, Written p is ∧ ∀ s, Matches is2 s → Matches is s := by
  induction p with
  | nil => exact ⟨is2, h, fun s hs => hs⟩
  | cons c p ih =>
    unfold skipStars at h
    split at h
    · rename_i e
      subst e
      obtain ⟨is, h1, h2⟩ := ih h
      exact ⟨.star :: is, .star h1, fun s hs => .star [] (h2 s hs)⟩
    · exact ⟨is2, h, fun s hs => hs⟩

/-- Parts that do not begin with a star need a character. -/
theorem needs_char {x : Ch} {p : List Ch} {is : List Item} (h : Written (x :: p) is) (hx : x ≠ 42) : ¬ Matches is [] := by
  intro hm
  cases h <;> first | exact hx rfl | (cases hm)

theorem mem_tails (s t : List Ch) : t ∈ tails s ↔ t ≠ [] ∧ ∃ u, s = u ++ t := by
  induction s with
  | nil =>
    simp only [tails, List.not_mem_nil, false_iff, not_and, not_exists]
    intro ht u e
    rw [eq_comm, List.append_eq_nil_iff] at e
    exact ht e.2
  | cons c s ih =>
    unfold tails
    rw [List.mem_cons, ih]
    constructor
    · rintro (e | ⟨ht, u, e⟩)
      · exact ⟨by rw [e]; simp, [], e.symm⟩
      · exact ⟨ht, c :: u, by rw [e]; rfl⟩
    · rintro ⟨ht, u, e⟩
      cases u with
      | nil => exact Or.inl e.symm
      | cons y u =>
        injection e with _ e
        exact Or.inr ⟨ht, u, e⟩

/-- One step of the matcher. -/
theorem glob_cons (q : Bool) (c x : Ch) (s p : List Ch) : glob q (c :: s) (x :: p) =
    if x = 42 then
      if (skipStars p).isEmpty then true else (tails (c :: s)).any fun t => glob q t (skipStars p)
    else if x = 63 ∧ q = true then glob q s p
    else if x = 63 ∨ x = 91 then
      match bracket c p with
      | none => false
      | some (found, r) => if found then glob q s r else false
    else if x = 92 then
      match p with
      | [] => false
      | y :: p => if c = y then glob q s p else false
    else if c = x then glob q s p else false := by
  rw [glob.eq_def]
  simp only
  split
  · rfl
  · split
    · rfl
    · split
      · split
        · rename_i h; rw [h]
        · rename_i h; rw [h]
      · rfl

theorem glob_sound : ∀ (n : Nat) (p s : List Ch), p.length ≤ n → glob true s p = true → ∃ is, Written p is ∧ Matches is s := by
  intro n
  induction n with
  | zero =>
    intro p s hl h
    cases p with
    | nil =>
      rw [glob] at h
      rw [List.isEmpty_iff.mp h]
      exact ⟨[], .nil, .nil⟩
    | cons x p => exact absurd hl (by simp)
  | succ n ih =>
    intro p s hl h
    cases p with
    | nil =>
      rw [glob] at h
      rw [List.isEmpty_iff.mp h]
      exact ⟨[], .nil, .nil⟩
    | cons x p =>
      have hlp : p.length ≤ n := by simp at hl; omega
      cases s with
      | nil =>
        rw [glob] at h
        have e := List.isEmpty_iff.mp h
        have h1 : Written (skipStars (x :: p)) [] := by rw [e]; exact .nil
        obtain ⟨is, h2, h3⟩ := skip_written _ h1
        exact ⟨is, h2, h3 [] .nil⟩
      | cons c s =>
        rw [glob_cons] at h
        split at h
        · rename_i e
          subst e
          split at h
          · rename_i e
            have e := List.isEmpty_iff.mp e
            have h1 : Written (skipStars p) [] := by rw [e]; exact .nil
            obtain ⟨is, h2, h3⟩ := skip_written _ h1
            refine ⟨.star :: is, .star h2, ?_⟩
            have := Matches.star (c :: s) (h3 [] .nil)
            rwa [List.append_nil] at this
          · rw [List.any_eq_true] at h
            obtain ⟨t, ht, h⟩ := h
            obtain ⟨_, u, e⟩ := (mem_tails _ t).1 ht
            obtain ⟨is2, h1, h2⟩ := ih (skipStars p) t (Nat.le_trans (skipStars_le p) hlp) h
            obtain ⟨is, h3, h4⟩ := skip_written _ h1
            refine ⟨.star :: is, .star h3, ?_⟩
            rw [e]
            exact .star u (h4 t h2)
        · split at h
          · rename_i e
            rw [e.1]
            obtain ⟨is, h1, h2⟩ := ih p s hlp h
            exact ⟨_, .any h1, .one trivial h2⟩
          · rename_i hx
            split at h
            · rename_i e
              have e : x = 91 := e.resolve_left fun e => hx ⟨e, rfl⟩
              subst e
              split at h
              · exact absurd h (by simp)
              · rename_i found r hb
                split at h
                · rename_i hf
                  rw [hf] at hb
                  have hr := bracket_shorter hb
                  obtain ⟨is, h1, h2⟩ := ih r s (by omega) h
                  rcases (bracket_iff c p r).1 hb with ⟨m, ms, e, g1, g2, g3⟩ | ⟨m, ms, e, g2, g3⟩
                  · rw [e]
                    exact ⟨_, .of g2 g1 h1, .one g3 h2⟩
                  · rw [e]
                    exact ⟨_, .notOf g2 h1, .one g3 h2⟩
                · exact absurd h (by simp)
            · rename_i hy
              split at h
              · rename_i e
                subst e
                cases p with
                | nil => exact absurd h (by simp)
                | cons y p =>
                  simp only at h
                  split at h
                  · rename_i e
                    obtain ⟨is, h1, h2⟩ := ih p s (by simp at hlp; omega) h
                    exact ⟨_, .escaped y h1, .one e h2⟩
                  · exact absurd h (by simp)
              · rename_i hz
                split at h
                · rename_i e
                  obtain ⟨is, h1, h2⟩ := ih p s hlp h
                  rename_i h42
                  exact ⟨_, .plain h42 (fun e => hy (Or.inl e)) (fun e => hy (Or.inr e)) hz h1, .one e h2⟩
                · exact absurd h (by simp)

theorem glob_complete : ∀ (n : Nat) (p s : List Ch) (is : List Item), p.length ≤ n → Written p is → Matches is s → glob true s p = true := by
  intro n
  induction n with
  | zero =>
    intro p s is hl h hm
    cases p with
    | nil =>
      cases h
      cases hm
      rw [glob]
      rfl
    | cons x p => exact absurd hl (by simp)
  | succ n ih =>
    intro p s is hl h hm
    cases p with
    | nil =>
      cases h
      cases hm
      rw [glob]
      rfl
    | cons x p =>
      have hlp : p.length ≤ n := by simp at hl; omega
      cases s with
      | nil =>
        rw [glob]
        obtain ⟨is2, h1, h2⟩ := written_skip h
        obtain ⟨u, t, e, ht⟩ := h2 [] hm
        have e2 := List.append_eq_nil_iff.mp e.symm
        rw [e2.2] at ht
        cases hp : skipStars (x :: p) with
        | nil => rfl
        | cons y q =>
          rw [hp] at h1
          have := skipStars_head (x :: p)
          rw [hp] at this
          exact absurd ht (needs_char h1 fun e => this (by rw [e]; rfl))
      | cons c s =>
        rw [glob_cons]
        cases h with
        | star h =>
          rw [if_pos rfl]
          split
          · rfl
          · rename_i hne
            generalize hcs : c :: s = cs at hm ⊢
            cases hm with
            | star u hm =>
              rename_i s0
              obtain ⟨is2, h1, h2⟩ := written_skip h
              obtain ⟨v, t, e, ht⟩ := h2 _ hm
              rw [List.any_eq_true]
              refine ⟨t, ?_, ih _ _ _ (Nat.le_trans (skipStars_le p) hlp) h1 ht⟩
              rw [mem_tails]
              refine ⟨?_, u ++ v, by rw [e, List.append_assoc]⟩
              intro et
              subst et
              cases hp : skipStars p with
              | nil => rw [hp] at hne; exact hne rfl
              | cons y q =>
                rw [hp] at h1
                have := skipStars_head p
                rw [hp] at this
                exact needs_char h1 (fun e => this (by rw [e]; rfl)) ht
        | any h =>
          cases hm with
          | one _ hm =>
            rw [if_neg (by decide), if_pos ⟨rfl, rfl⟩]
            exact ih _ _ _ hlp h hm
        | @escaped p _ y h =>
          cases hm with
          | one e hm =>
            rw [if_neg (by decide), if_neg (by decide), if_neg (by decide), if_pos rfl]
            simp only
            rw [if_pos e]
            exact ih _ _ _ (by simp at hlp; omega) h hm
        | @of p is m ms h1 h2 h3 =>
          cases hm with
          | one e hm =>
            rw [if_neg (by decide), if_neg (by decide), if_pos (Or.inr rfl)]
            have hb := (bracket_iff c (m ++ 93 :: p) p).2 (Or.inl ⟨m, ms, rfl, h2, h1, e⟩)
            have hr := bracket_shorter hb
            split
            · rename_i e2; rw [hb] at e2; exact absurd e2 (by simp)
            · rename_i found r e2
              rw [hb] at e2
              injection e2 with e2
              injection e2 with e3 e4
              subst e3; subst e4
              rw [if_pos rfl]
              exact ih _ _ _ (by omega) h3 hm
        | @notOf p is m ms h1 h3 =>
          cases hm with
          | one e hm =>
            rw [if_neg (by decide), if_neg (by decide), if_pos (Or.inr rfl)]
            have hb := (bracket_iff c (33 :: (m ++ 93 :: p)) p).2 (Or.inr ⟨m, ms, rfl, h1, e⟩)
            have hr := bracket_shorter hb
            split
            · rename_i e2; rw [hb] at e2; exact absurd e2 (by simp)
            · rename_i found r e2
              rw [hb] at e2
              injection e2 with e2
              injection e2 with e3 e4
              subst e3; subst e4
              rw [if_pos rfl]
              exact ih _ _ _ (by omega) h3 hm
        | plain h1 h2 h3 h4 h =>
          cases hm with
          | one e hm =>
            rw [if_neg h1, if_neg (fun e => h2 e.1), if_neg (fun e => e.elim h2 h3), if_neg h4, if_pos e]
            exact ih _ _ _ hlp h hm

/-- C111: for every pattern and every name, the pattern matches if and only if it is well formed and the name is put together from what its
parts stand for. In particular a pattern that is not well formed matches nothing. -/
theorem C111_glob (p s : List Ch) : glob true s p = true ↔ ∃ is, Written p is ∧ Matches is s :=
  ⟨glob_sound _ p s (Nat.le_refl _), fun ⟨_, h1, h2⟩ => glob_complete _ p s _ (Nat.le_refl _) h1 h2⟩

/-- C111: a pattern without special characters matches only itself. -/
theorem C111_plain (p s : List Ch) (h : hasGlob p = false) (hb : 92 ∉ p) : glob true s p = true ↔ s = p := by
  induction p generalizing s with
  | nil => rw [glob]; exact List.isEmpty_iff
  | cons x p ih =>
    have hx : ¬ (x = 42 ∨ x = 63 ∨ x = 91) ∧ hasGlob p = false := by
      unfold hasGlob at h ⊢
      rw [List.any_cons, Bool.or_eq_false_iff] at h
      refine ⟨?_, h.2⟩
      rintro (e | e | e) <;> (subst e; exact absurd h.1 (by decide))
    have h92 : x ≠ 92 := fun e => hb (by rw [e]; simp)
    cases s with
    | nil =>
      rw [glob]
      unfold skipStars
      rw [if_neg (fun e => hx.1 (Or.inl e))]
      simp
    | cons c s =>
      rw [glob_cons, if_neg (fun e => hx.1 (Or.inl e)), if_neg (fun e => hx.1 (Or.inr (Or.inl e.1))),
        if_neg (fun e => e.elim (fun e => hx.1 (Or.inr (Or.inl e))) (fun e => hx.1 (Or.inr (Or.inr e)))), if_neg h92]
      split
      · rename_i e
        rw [ih s hx.2 (fun e => hb (List.mem_cons_of_mem _ e)), e]
        simp
      · rename_i e
        simp [e]

/-- `*[!x].t?t` and `abc.txt`. -/
example : glob true [97, 98, 99, 46, 116, 120, 116] [42, 91, 33, 120, 93, 46, 116, 63, 116] = true := by decide +kernel

/-- `*[!c].t?t` and `abc.txt`. -/
example : glob true [97, 98, 99, 46, 116, 120, 116] [42, 91, 33, 99, 93, 46, 116, 63, 116] = false := by decide +kernel

/-- The pattern `a*[b-d]` is well formed. -/
example : Written [97, 42, 91, 98, 45, 100, 93] [.one (· = 97), .star, .one (Among [(98, 100)])] :=
  .plain (by decide) (by decide) (by decide) (by decide) (.star (.of (m := [98, 45, 100]) (.range (Or.inl rfl) .nil) (by decide) .nil))

example : hasGlob [97, 46, 98] = false ∧ (92 : Ch) ∉ ([97, 46, 98] : List Ch) := by decide

/-- C111: the name of a file, given as the pattern, matches that file. This is what a user who passes a name expects. -/
def C111_itself_claim : Prop := ∀ s : List Ch, hasGlob s = false → glob true s s = true

/-- C111: with a backslash in the name it does not: `a\b` does not match itself, although it is not taken for a pattern. -/
theorem C111_itself_fails : ¬ C111_itself_claim := by
  intro h
  have := h [97, 92, 98] (by decide)
  exact absurd this (by decide +kernel)

/-- C111: for names without a backslash it does. -/
theorem C111_itself_partial (s : List Ch) (h : hasGlob s = false) (hb : 92 ∉ s) : glob true s s = true :=
  (C111_plain s s h hb).2 rfl

/-- C111: `[a-]`, elsewhere `a` or `-`, matches no name at all. -/
theorem C111_dash_fails (s : List Ch) : glob true s [91, 97, 45, 93] = false := by
  cases s with
  | nil => rw [glob]; rfl
  | cons c s =>
    rw [glob_cons, if_neg (by decide), if_neg (by decide), if_pos (Or.inr rfl)]
    have : bracket c [97, 45, 93] = none := by simp [bracket, members]
    rw [this]

/-- C111: `?` stands for one byte, so it does not match the name `é` in UTF-8. -/
theorem C111_utf8_fails : glob true [-61, -87] [63] = false ∧ glob true [-61, -87] [63, 63] = true := by decide +kernel

/-- C111: with question marks switched off `?` is read as an opening bracket: `?` does not match `?`, and `?a]` matches `a`. -/
theorem C111_question_fails : glob false [63] [63] = false ∧ glob false [97] [63, 97, 93] = true := by decide +kernel

end Verif.Glob
