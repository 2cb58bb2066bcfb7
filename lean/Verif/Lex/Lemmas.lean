import Verif.Lex.Spec
import Verif.Table.Column
/-! Lemmas about quoted texts and names. -/
namespace Verif.Lex
open Verif
open Verif.Text (showNat natOf isDigit isDigits showNat_digits natOf_showNat)

theorem newline_iff (c : UInt8) : isNewline c = true ↔ c = 10 ∨ c = 13 := by simp [isNewline]
theorem horiz_iff (c : UInt8) : isHoriz c = true ↔ c = 32 ∨ c = 9 ∨ c = 12 := by simp [isHoriz, or_assoc]

/-! ### Continued texts -/

theorem cont_cons (nl com : Bool) (c : UInt8) (r : Bytes) : cont nl com (c :: r) =
    if com then (if isNewline c then cont true false r else cont nl true r)
    else if c = 39 then (if nl then some r else none)
    else if isNewline c then cont true false r
    else if isHoriz c then cont nl false r
    else if c = 45 then (if r.head? = some 45 then cont nl true r.tail else none)
    else none := by
  conv_lhs => unfold cont
  split
  · rfl
  · split
    · rfl
    · split
      · rfl
      · split
        · rfl
        · split
          · split
            · simp
            · rename_i hr
              rw [if_neg]
              intro h
              cases r with
              | nil => simp at h
              | cons d r => simp only [List.head?_cons, Option.some.injEq] at h; subst h; exact hr r rfl
          · rfl

theorem cont_comment (nl : Bool) (s : Bytes) (n : UInt8) (r : Bytes) (hs : ∀ c ∈ s, c ≠ 10 ∧ c ≠ 13) (hn : n = 10 ∨ n = 13) :
    cont nl true (s ++ n :: r) = cont true false r := by
  induction s with
  | nil => rw [List.nil_append, cont_cons, if_pos rfl, if_pos ((newline_iff n).mpr hn)]
  | cons c s ih =>
    have hc := hs c (by simp)
    rw [List.cons_append, cont_cons, if_pos rfl, if_neg, ih fun d hd => hs d (by simp [hd])]
    rw [newline_iff]; tauto

theorem cont_blank {w : Bytes} (h : Blank w) (r : Bytes) : ∀ nl : Bool, (nl = true ∨ ∃ c ∈ w, c = 10 ∨ c = 13) →
    cont nl false (w ++ 39 :: r) = some r := by
  induction h with
  | nil =>
    intro nl hn
    have : nl = true := by simpa using hn
    subst this; rw [List.nil_append, cont_cons]; simp
  | space c w hc _ ih =>
    intro nl hn
    simp only [List.mem_cons, List.not_mem_nil, or_false] at hc
    have h39 : c ≠ 39 := by rcases hc with rfl | rfl | rfl | rfl | rfl <;> decide
    rw [List.cons_append, cont_cons]
    by_cases hw : c = 10 ∨ c = 13
    · rw [if_neg (by simp), if_neg h39, if_pos ((newline_iff c).mpr hw)]; exact ih true (.inl rfl)
    · rw [if_neg (by simp), if_neg h39, if_neg (by rw [newline_iff]; exact hw), if_pos (by rw [horiz_iff]; tauto)]
      apply ih nl
      rcases hn with hn | ⟨d, hd, hn⟩
      · exact .inl hn
      · rcases List.mem_cons.mp hd with rfl | hd
        · exact absurd hn hw
        · exact .inr ⟨d, hd, hn⟩
  | comment s n w hs hn _ ih =>
    intro nl _
    have e : [45, 45] ++ s ++ [n] ++ w ++ 39 :: r = 45 :: 45 :: (s ++ n :: (w ++ 39 :: r)) := by simp
    rw [e, cont_cons]
    simp only [Bool.false_eq_true, if_false, show (45 : UInt8) ≠ 39 by decide, show isNewline 45 = false by decide,
      show isHoriz 45 = false by decide, if_true, List.head?_cons, List.tail_cons]
    rw [cont_comment nl s n _ hs hn]; exact ih true (.inl rfl)

theorem cont_sound : ∀ (s : Bytes) (nl com : Bool) (r : Bytes), cont nl com s = some r →
    ∃ w, s = w ++ 39 :: r ∧ (nl = true ∨ ∃ c ∈ w, c = 10 ∨ c = 13) ∧ (com = false → Blank w) ∧
      (com = true → ∃ b n v, w = b ++ n :: v ∧ (∀ c ∈ b, c ≠ 10 ∧ c ≠ 13) ∧ (n = 10 ∨ n = 13) ∧ Blank v)
  | [], _, _, _, h => by simp [cont] at h
  | c :: s, nl, com, r, h => by
    unfold cont at h
    split at h
    · rename_i hc
      split at h
      · rename_i hn
        obtain ⟨w, rfl, hw, hb, -⟩ := cont_sound s _ _ r h
        have hn := (newline_iff c).mp hn
        exact ⟨c :: w, rfl, .inr ⟨c, by simp, hn⟩, by simp [hc], fun _ => ⟨[], c, w, rfl, by simp, hn, hb rfl⟩⟩
      · rename_i hn
        obtain ⟨w, rfl, hw, hb, hb'⟩ := cont_sound s _ _ r h
        obtain ⟨b, n, v, rfl, hbb, hnn, hv⟩ := hb' rfl
        rw [newline_iff] at hn
        refine ⟨c :: (b ++ n :: v), rfl, ?_, by simp [hc], fun _ => ⟨c :: b, n, v, rfl, ?_, hnn, hv⟩⟩
        · exact .inr ⟨n, by simp, hnn⟩
        · intro d hd
          rcases List.mem_cons.mp hd with rfl | hd
          · tauto
          · exact hbb d hd
    · rename_i hc
      have hc : com = false := by simpa using hc
      subst hc
      split at h
      · rename_i h39
        split at h
        · cases h; subst h39
          rename_i hnl
          exact ⟨[], rfl, .inl hnl, fun _ => .nil, by simp⟩
        · cases h
      · split at h
        · rename_i hn
          have hn := (newline_iff c).mp hn
          obtain ⟨w, rfl, hw, hb, -⟩ := cont_sound s _ _ r h
          exact ⟨c :: w, rfl, .inr ⟨c, by simp, hn⟩, fun _ => .space c w (by simp; tauto) (hb rfl), by simp⟩
        · split at h
          · rename_i hh
            rw [horiz_iff] at hh
            obtain ⟨w, rfl, hw, hb, -⟩ := cont_sound s _ _ r h
            refine ⟨c :: w, rfl, ?_, fun _ => .space c w (by simp; tauto) (hb rfl), by simp⟩
            rcases hw with hw | ⟨d, hd, hw⟩
            · exact .inl hw
            · exact .inr ⟨d, by simp [hd], hw⟩
          · split at h
            · split at h
              · rename_i h45 _ r'
                subst h45
                obtain ⟨w, rfl, hw, -, hb'⟩ := cont_sound _ _ _ r h
                obtain ⟨b, n, v, rfl, hbb, hnn, hv⟩ := hb' rfl
                refine ⟨45 :: 45 :: (b ++ n :: v), rfl, .inr ⟨n, by simp, hnn⟩, fun _ => ?_, by simp⟩
                have := Blank.comment b n v hbb hnn hv
                simpa using this
              · cases h
            · cases h

theorem cont_iff (r : Bytes) : Continues r ↔ (cont false false r).isSome := by
  constructor
  · rintro ⟨w, r', hw, hn, rfl⟩
    rw [cont_blank hw r' false (.inr hn)]; rfl
  · intro h
    obtain ⟨r', h⟩ := Option.isSome_iff_exists.mp h
    obtain ⟨w, rfl, hw, hb, -⟩ := cont_sound r _ _ r' h
    exact ⟨w, r', hb rfl, by simpa using hw, rfl⟩

theorem cont_none {r : Bytes} (h : ¬ Continues r) : cont false false r = none := by
  rw [cont_iff] at h; simpa using h

/-! ### Quoted texts -/

theorem quoted_stop {r : Bytes} (h1 : r.head? ≠ some 39) (h2 : cont false false r = none) : quoted (39 :: r) = .ok ([], r) := by
  rw [quoted]
  simp only [if_true, if_neg h1]
  split
  · rename_i r' h; rw [h2] at h; cases h
  · rfl

theorem quoted_go {r r' : Bytes} (h1 : r.head? ≠ some 39) (h2 : cont false false r = some r') : quoted (39 :: r) = quoted r' := by
  rw [quoted]
  simp only [if_true, if_neg h1]
  split
  · rename_i r'' h; rw [h2] at h; cases h; rfl
  · rename_i h; rw [h2] at h; cases h

theorem quoted_two (r : Bytes) : quoted (39 :: 39 :: r) = (quoted r).map' fun p => (39 :: p.1, p.2) := by
  rw [quoted]; simp

theorem quoted_other {c : UInt8} (r : Bytes) (h : c ≠ 39) : quoted (c :: r) = (quoted r).map' fun p => (c :: p.1, p.2) := by
  rw [quoted]; simp [h]

theorem map'_map' {α β γ : Type} (x : Res α) (f : α → β) (g : β → γ) : (x.map' f).map' g = x.map' fun a => g (f a) := by
  cases x <;> rfl

theorem quoted_double (s t : Bytes) : quoted (double 39 s ++ t) = (quoted t).map' fun p => (s ++ p.1, p.2) := by
  induction s with
  | nil => simp only [double, List.flatMap_nil, List.nil_append]; cases quoted t <;> rfl
  | cons c s ih =>
    have e : double 39 (c :: s) ++ t = (if c = 39 then [c, c] else [c]) ++ (double 39 s ++ t) := by simp [double]
    rw [e]
    by_cases hc : c = 39
    · subst hc
      simp only [if_true, List.cons_append, List.nil_append]
      rw [quoted_two, ih, map'_map']
    · simp only [if_neg hc, List.cons_append, List.nil_append]
      rw [quoted_other _ hc, ih, map'_map']

theorem head_blank {w r : Bytes} (h : Blank w) (hn : w ≠ []) : (w ++ r).head? ≠ some 39 := by
  cases h with
  | nil => exact absurd rfl hn
  | space c w hc _ =>
    simp only [List.mem_cons, List.not_mem_nil, or_false] at hc
    rcases hc with rfl | rfl | rfl | rfl | rfl <;> simp
  | comment => simp

/-! ### Texts with escapes -/

theorem equoted_stop {r : Bytes} (h1 : r.head? ≠ some 39) (h2 : cont false false r = none) : equoted (39 :: r) = .ok ([], r) := by
  rw [equoted]
  simp only [if_true, if_neg h1]
  split
  · rename_i r' h; rw [h2] at h; cases h
  · rfl

theorem equoted_escape (s t : Bytes) :
    equoted ((s.flatMap fun c => if c = 39 ∨ c = 92 then [c, c] else [c]) ++ t) = (equoted t).map' fun p => (s ++ p.1, p.2) := by
  induction s with
  | nil => simp only [List.flatMap_nil, List.nil_append]; cases equoted t <;> rfl
  | cons c s ih =>
    rw [List.flatMap_cons, List.append_assoc]
    generalize (s.flatMap fun c => if c = 39 ∨ c = 92 then [c, c] else [c]) ++ t = u at ih ⊢
    by_cases hc : c = 39
    · subst hc
      simp only [true_or, if_true, List.cons_append, List.nil_append]
      rw [equoted]
      simp only [if_true, List.head?_cons, List.tail_cons]
      rw [ih, map'_map']
    · by_cases h9 : c = 92
      · subst h9
        simp only [or_true, if_true, List.cons_append, List.nil_append]
        rw [equoted]
        have he : escape (92 :: u) = .ok ([92], u) := by
          unfold escape
          simp only [show isOct 92 = false by decide, Bool.false_eq_true, if_false, show (92 : UInt8) ≠ 120 by decide,
            show ¬((92 : UInt8) = 117 ∨ (92 : UInt8) = 85) by decide]; rfl
        simp only [show (92 : UInt8) ≠ 39 by decide, if_false, if_true, he]
        rw [dif_pos (by simp), ih, map'_map']; rfl
      · simp only [hc, h9, or_self, if_false, List.cons_append, List.nil_append]
        rw [equoted]
        simp only [hc, h9, if_false]
        rw [ih, map'_map']

/-! ### Quoted names -/

theorem dquoted_double (s r : Bytes) (h : r.head? ≠ some 34) : dquoted (double 34 s ++ 34 :: r) = .ok (s, r) := by
  induction s with
  | nil =>
    simp only [double, List.flatMap_nil, List.nil_append]
    unfold dquoted
    rw [if_pos rfl]
    split
    · simp at h
    · rfl
  | cons c s ih =>
    have e : double 34 (c :: s) ++ 34 :: r = (if c = 34 then [c, c] else [c]) ++ (double 34 s ++ 34 :: r) := by simp [double]
    rw [e]
    by_cases hc : c = 34
    · subst hc
      simp only [if_true, List.cons_append, List.nil_append]
      unfold dquoted
      simp only [if_true]
      rw [ih]; rfl
    · simp only [if_neg hc, List.cons_append, List.nil_append]
      unfold dquoted
      rw [if_neg hc, ih]; rfl

/-! ### Dollar quoted texts -/

/-- The delimiter with a name. -/
theorem delim_eq {tag : Bytes} (ht : tag.all dolqCont = true) (hs : nameNext (tag ++ [36]) = true) (r : Bytes) :
    delim (36 :: tag ++ 36 :: r) = some (36 :: tag ++ [36]) := by
  have h36 : dolqCont 36 = false := by decide
  have htw : ∀ x : Bytes, (tag ++ 36 :: x).takeWhile dolqCont = tag := by
    intro x
    rw [List.takeWhile_append_of_pos (by simpa using ht)]; simp [List.takeWhile, h36]
  have hdw : ∀ x : Bytes, (tag ++ 36 :: x).dropWhile dolqCont = 36 :: x := by
    intro x
    rw [List.dropWhile_append_of_pos (by simpa using ht)]; simp [List.dropWhile, h36]
  have hn : nameNext (tag ++ 36 :: r) = true := by
    cases tag with
    | nil => rfl
    | cons c tag => simpa [nameNext] using hs
  rw [List.cons_append]
  rw [delim, if_pos ⟨rfl, hn, by rw [hdw]; rfl⟩, htw]

theorem delim_prefix {s d : Bytes} (h : delim s = some d) : d <+: s := by
  cases s with
  | nil => simp [delim] at h
  | cons c r =>
    rw [delim] at h
    split at h
    · rename_i hc
      cases h
      obtain ⟨rfl, -, h36⟩ := hc
      refine ⟨(r.dropWhile dolqCont).tail, ?_⟩
      have h1 : r.dropWhile dolqCont = 36 :: (r.dropWhile dolqCont).tail := by
        cases hr : r.dropWhile dolqCont with
        | nil => rw [hr] at h36; simp at h36
        | cons a b => rw [hr] at h36; simp only [List.head?_cons, Option.some.injEq] at h36; rw [h36]; rfl
      have h2 := List.takeWhile_append_dropWhile (p := dolqCont) (l := r)
      rw [h1] at h2
      simp only [List.cons_append, List.append_assoc, List.nil_append, List.cons.injEq, true_and]
      exact h2
    · cases h

/-- A text in which the delimiter does not begin before its end is read up to there. -/
theorem dollar_eq {start : Bytes} (r : Bytes) (hd : delim (start ++ r) = some start) (hne : start ≠ []) : ∀ (body : Bytes),
    (∀ a b : Bytes, body = a ++ b → b ≠ [] → ¬ start <+: b ++ start ++ r) → dollar start (body ++ (start ++ r)) = .ok (body, r)
  | [], _ => by
    cases start with
    | nil => exact absurd rfl hne
    | cons c st =>
      simp only [List.nil_append, List.cons_append]
      rw [List.cons_append] at hd
      unfold dollar
      rw [if_pos hd]; simp
  | c :: body, h => by
    rw [List.cons_append]
    unfold dollar
    rw [if_neg, dollar_eq r hd hne body]
    · rfl
    · intro a b e hb
      exact h (c :: a) b (by rw [e]; rfl) hb
    · intro hc
      have := delim_prefix hc
      exact h [] (c :: body) rfl (by simp) (by simpa [List.append_assoc] using this)

end Verif.Lex
