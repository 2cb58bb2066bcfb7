import Verif.Json.Spec
import Mathlib.Data.List.Nodup
import Mathlib.Data.List.Infix
/-!
Helper lemmas on paths and trees.
-/
namespace Verif.Json

open Verif.DocVal

/-! ### keys -/

theorem unescape_cons (c : UInt8) (r : Bytes) (h : c ≠ tilde) : unescape (c :: r) = (unescape r).map (c :: ·) := by
  rw [unescape.eq_def]
  simp only [if_neg h]

theorem unescape_0 (r : Bytes) : unescape (tilde :: char0 :: r) = (unescape r).map (tilde :: ·) := by
  rw [unescape.eq_def]
  simp

theorem unescape_1 (r : Bytes) : unescape (tilde :: char1 :: r) = (unescape r).map (slash :: ·) := by
  rw [unescape.eq_def]
  simp only [if_pos]
  rw [if_neg (by decide)]

theorem unescape_escape (k : Bytes) : unescape (escape k) = some k := by
  induction k with
  | nil => rfl
  | cons c r ih =>
    unfold escape
    by_cases h1 : c = tilde
    · rw [if_pos h1, unescape_0, ih, h1]; rfl
    · rw [if_neg h1]
      by_cases h2 : c = slash
      · rw [if_pos h2, unescape_1, ih, h2]; rfl
      · rw [if_neg h2, unescape_cons c _ h1, ih]; rfl

theorem slash_notin_escape (k : Bytes) : slash ∉ escape k := by
  induction k with
  | nil => exact List.not_mem_nil
  | cons c r ih =>
    unfold escape
    by_cases h1 : c = tilde
    · rw [if_pos h1]
      simp only [List.mem_cons, not_or]
      exact ⟨by decide, by decide, ih⟩
    · rw [if_neg h1]
      by_cases h2 : c = slash
      · rw [if_pos h2]
        simp only [List.mem_cons, not_or]
        exact ⟨by decide, by decide, ih⟩
      · rw [if_neg h2]
        simp only [List.mem_cons, not_or]
        exact ⟨fun h => h2 h.symm, ih⟩

theorem unescape_inv : ∀ (p : Bytes) (k : Bytes), slash ∉ p → unescape p = some k → p = escape k := by
  intro p
  induction p using unescape.induct with
  | case1 => intro k _ h; cases h; rfl
  | case2 => intro k _ h; simp [unescape] at h
  | case3 r ih =>
    intro k hs h
    rw [unescape_0] at h
    obtain ⟨k', hk', rfl⟩ := Option.map_eq_some_iff.mp h
    have := ih k' (fun hm => hs (List.mem_cons_of_mem _ (List.mem_cons_of_mem _ hm))) hk'
    conv => rhs; unfold escape
    rw [if_pos rfl, ← this]
  | case4 r hne ih =>
    intro k hs h
    rw [unescape_1] at h
    obtain ⟨k', hk', rfl⟩ := Option.map_eq_some_iff.mp h
    have := ih k' (fun hm => hs (List.mem_cons_of_mem _ (List.mem_cons_of_mem _ hm))) hk'
    conv => rhs; unfold escape
    rw [if_neg (by decide), if_pos rfl, ← this]
  | case5 e r h0 h1 =>
    intro k _ h
    rw [unescape.eq_def] at h
    simp [h0, h1] at h
  | case6 c r hc ih =>
    intro k hs h
    rw [unescape_cons c r hc] at h
    obtain ⟨k', hk', rfl⟩ := Option.map_eq_some_iff.mp h
    have := ih k' (fun hm => hs (List.mem_cons_of_mem _ hm)) hk'
    conv => rhs; unfold escape
    rw [if_neg hc, if_neg (by rintro rfl; exact hs List.mem_cons_self), ← this]

/-! ### splitting -/

theorem split_ne (s : Bytes) : split s ≠ [] := by
  induction s with
  | nil => simp [split]
  | cons c r ih =>
    unfold split
    by_cases h : c = slash
    · rw [if_pos h]; simp
    · rw [if_neg h]
      cases e : split r with
      | nil => exact absurd e ih
      | cons p ps => simp

theorem split_piece (p rest : Bytes) (h : slash ∉ p) : split (p ++ slash :: rest) = p :: split rest := by
  induction p with
  | nil =>
    rw [List.nil_append]
    conv => lhs; unfold split
    rw [if_pos rfl]
  | cons c r ih =>
    simp only [List.mem_cons, not_or] at h
    rw [List.cons_append]
    conv => lhs; unfold split
    rw [if_neg (Ne.symm h.1), ih h.2]

theorem split_last (p : Bytes) (h : slash ∉ p) : split p = [p] := by
  induction p with
  | nil => rfl
  | cons c r ih =>
    simp only [List.mem_cons, not_or] at h
    unfold split
    rw [if_neg (Ne.symm h.1), ih h.2]

theorem split_lastSlash (s : Bytes) : match lastSlash s with
    | none => split s = [s]
    | some i => i < s.length ∧ s[i]? = some slash ∧ split s = split (s.take i) ++ [s.drop (i + 1)] := by
  induction s with
  | nil => rfl
  | cons c r ih =>
    unfold lastSlash
    cases h : lastSlash r with
    | some i =>
      rw [h] at ih
      simp only at ih ⊢
      obtain ⟨h1, h2, h3⟩ := ih
      refine ⟨by simp; omega, by simpa using h2, ?_⟩
      rw [List.take_succ_cons, List.drop_succ_cons]
      conv => lhs; unfold split
      conv => rhs; unfold split
      by_cases hc : c = slash
      · rw [if_pos hc, if_pos hc, h3]; rfl
      · rw [if_neg hc, if_neg hc, h3]
        cases e : split (r.take i) with
        | nil => exact absurd e (split_ne _)
        | cons p ps => rfl
    | none =>
      rw [h] at ih
      simp only at ih ⊢
      by_cases hc : c = slash
      · rw [if_pos hc]
        simp only
        refine ⟨by simp, by simp [hc], ?_⟩
        rw [hc]
        conv => lhs; unfold split
        rw [if_pos rfl, ih]
        rfl
      · rw [if_neg hc]
        simp only
        unfold split
        rw [if_neg hc, ih]

theorem strip_slash (r : Bytes) : strip (slash :: r) = r := by simp [strip]

theorem strip_other (c : UInt8) (r : Bytes) (h : c ≠ slash) : strip (c :: r) = c :: r := by simp [strip, h]

/-- The pieces of a path: those of the container, and the last one. -/
theorem place_pieces (ptr : Bytes) (h : ptr ≠ []) : ∃ init last ch, split (strip ptr) = init ++ [last] ∧
    ptr[(lastSlash ptr).getD 0]? = some ch ∧
    (if ch = slash then ptr.drop ((lastSlash ptr).getD 0 + 1) else ptr) = last ∧
    (∀ n, findNode n (ptr.take ((lastSlash ptr).getD 0)) = find n init) ∧
    ∀ f n, modifyPtr f n (ptr.take ((lastSlash ptr).getD 0)) = modify f n init := by
  cases ptr with
  | nil => exact absurd rfl h
  | cons c r =>
    have hs := split_lastSlash (c :: r)
    have hr := split_lastSlash r
    by_cases hc : c = slash
    · have e : strip (c :: r) = r := by rw [hc, strip_slash]
      rw [e]
      cases hl : lastSlash r with
      | none =>
        rw [hl] at hr
        have el : lastSlash (c :: r) = some 0 := by unfold lastSlash; rw [hl]; simp [hc]
        rw [el]
        refine ⟨[], r, c, hr, by simp, by simp [hc], fun n => rfl, fun f n => rfl⟩
      | some i =>
        rw [hl] at hr
        simp only at hr
        have el : lastSlash (c :: r) = some (i + 1) := by unfold lastSlash; rw [hl]
        rw [el]
        refine ⟨split (r.take i), r.drop (i + 1), slash, hr.2.2, by simpa using hr.2.1, by simp, fun n => ?_, fun f n => ?_⟩
        · show find n (split (strip (c :: r.take i))) = _
          rw [hc, strip_slash]
        · show modify f n (split (strip (c :: r.take i))) = _
          rw [hc, strip_slash]
    · have e : strip (c :: r) = c :: r := by rw [strip_other c r hc]
      rw [e]
      cases hl : lastSlash r with
      | none =>
        have el : lastSlash (c :: r) = none := by unfold lastSlash; rw [hl]; simp [hc]
        rw [el] at hs ⊢
        refine ⟨[], c :: r, c, hs, by simp, by simp [hc], fun n => rfl, fun f n => rfl⟩
      | some i =>
        have el : lastSlash (c :: r) = some (i + 1) := by unfold lastSlash; rw [hl]
        rw [el] at hs ⊢
        simp only at hs
        refine ⟨split ((c :: r).take (i + 1)), (c :: r).drop (i + 1 + 1), slash, hs.2.2, by simpa using hs.2.1, by simp, fun n => ?_, fun f n => ?_⟩
        · show find n (split (strip (c :: r.take i))) = _
          rw [strip_other _ _ hc]; rfl
        · show modify f n (split (strip (c :: r.take i))) = _
          rw [strip_other _ _ hc]; rfl

/-! ### numbers -/

def isDigit (c : UInt8) : Prop := 48 ≤ c ∧ c ≤ 57

theorem digit_ofNat (n : Nat) (h : n < 10) : isDigit (UInt8.ofNat (48 + n)) ∧ (UInt8.ofNat (48 + n)).toNat = 48 + n := by
  have e : (UInt8.ofNat (48 + n)).toNat = 48 + n := by simp; omega
  refine ⟨⟨?_, ?_⟩, e⟩
  · rw [UInt8.le_iff_toNat_le, e]; simp
  · rw [UInt8.le_iff_toNat_le, e]; simp; omega

theorem decimal_digits (n : Nat) : ∀ c ∈ decimal n, isDigit c := by
  induction n using decimal.induct with
  | case1 n h =>
    intro c hc
    unfold decimal at hc
    rw [if_pos h] at hc
    simp only [List.mem_cons, List.not_mem_nil, or_false] at hc
    rw [hc]; exact (digit_ofNat n h).1
  | case2 n h ih =>
    intro c hc
    unfold decimal at hc
    rw [if_neg h, List.mem_append] at hc
    rcases hc with hc | hc
    · exact ih c hc
    · simp only [List.mem_cons, List.not_mem_nil, or_false] at hc
      rw [hc]; exact (digit_ofNat _ (by omega)).1

theorem decimal_ne (n : Nat) : decimal n ≠ [] := by
  unfold decimal
  split
  · simp
  · simp

theorem digits_cons (c : UInt8) (r : Bytes) (n : Nat) (h : isDigit c) : digits (c :: r) n = digits r (10 * n + (c.toNat - 48)) := by
  have h' : 48 ≤ c ∧ c ≤ 57 := h
  simp only [digits, if_pos h']

theorem digits_append (a b : Bytes) (m : Nat) (h : ∀ c ∈ a, isDigit c) : digits (a ++ b) m = digits b (digits a m) := by
  induction a generalizing m with
  | nil => rfl
  | cons c a ih =>
    have hc := h c List.mem_cons_self
    rw [List.cons_append, digits_cons _ _ _ hc, digits_cons _ _ _ hc, ih _ fun x hx => h x (List.mem_cons_of_mem _ hx)]

theorem digits_decimal (n : Nat) : digits (decimal n) 0 = n := by
  induction n using decimal.induct with
  | case1 n h =>
    unfold decimal
    rw [if_pos h]
    rw [digits_cons _ _ _ (digit_ofNat n h).1, (digit_ofNat n h).2]
    simp [digits]
  | case2 n h ih =>
    unfold decimal
    rw [if_neg h, digits_append _ _ _ (decimal_digits _), ih]
    have := digit_ofNat (n % 10) (by omega)
    rw [digits_cons _ _ _ this.1, this.2]
    simp only [digits]
    omega

theorem atol_decimal (n : Nat) (h : n < 2 ^ 63) : atol (decimal n) = .ok n := by
  have hd := decimal_digits n
  have hv := digits_decimal n
  cases e : decimal n with
  | nil => exact absurd e (decimal_ne n)
  | cons c r =>
    rw [e] at hd hv
    have hc := hd c List.mem_cons_self
    have h1 : 48 ≤ c.toNat := by have := hc.1; rw [UInt8.le_iff_toNat_le] at this; exact this
    unfold atol
    rw [if_neg]
    · unfold atolSigned
      have n1 : c ≠ 45 := by rintro rfl; revert h1; decide
      have n2 : c ≠ 43 := by rintro rfl; revert h1; decide
      simp only [if_neg n1, if_neg n2, hv]
      exact if_pos ⟨by omega, by omega⟩
    · rintro (rfl | ⟨_, hb⟩)
      · revert h1; decide
      · rw [UInt8.le_iff_toNat_le] at hb
        have : (13 : UInt8).toNat = 13 := rfl
        omega

theorem slash_notin_text (k : Key) : slash ∉ k.text := by
  cases k with
  | name k => exact slash_notin_escape k
  | index i =>
    intro h
    have := decimal_digits i slash h
    revert this
    unfold isDigit
    decide

theorem split_pointer : ∀ (l : Loc) (k : Key), split (strip (pointer (k :: l))) = (k :: l).map Key.text := by
  have main : ∀ (l : Loc) (k : Key), split (k.text ++ pointer l) = (k :: l).map Key.text := by
    intro l
    induction l with
    | nil =>
      intro k
      simp only [pointer, List.append_nil, List.map_cons, List.map_nil]
      exact split_last _ (slash_notin_text k)
    | cons k' l ih =>
      intro k
      show split (k.text ++ slash :: (k'.text ++ pointer l)) = _
      rw [split_piece _ _ (slash_notin_text k), ih k']
      rfl
  intro l k
  show split (strip (slash :: (k.text ++ pointer l))) = _
  rw [strip_slash]
  exact main l k

theorem pointer_ne (k : Key) (l : Loc) : pointer (k :: l) ≠ [] := by simp [pointer]

/-! ### reading -/

/-- What `find` answers for what is in a place. -/
def answer : Option Node → Found
  | some n => .node n
  | none => .noElement

theorem find_fits : ∀ (l : Loc) (n : Node), Fits n l → find n (l.map Key.text) = .ok (answer (reach n l)) := by
  intro l
  induction l with
  | nil => intro n _; rfl
  | cons k l ih =>
    intro n hf
    rw [List.map_cons]
    cases k with
    | name k =>
      cases n with
      | obj fs =>
        unfold find
        simp only [Key.text]
        rw [unescape_escape]
        simp only [reach]
        cases e : lookN fs k with
        | none => rfl
        | some c => exact ih c (hf c e)
      | arr xs => exact absurd hf id
      | leaf v => rfl
      | del => rfl
    | index i =>
      cases n with
      | obj fs => exact absurd hf id
      | arr xs =>
        obtain ⟨h1, h2⟩ := hf
        unfold find
        simp only [Key.text]
        rw [atol_decimal i h1]
        simp only [Res.bind, reach]
        rw [if_pos (by omega)]
        simp only [Int.toNat_natCast]
        cases e : xs[i]? with
        | none => rfl
        | some c => exact ih c (h2 c e)
      | leaf v => rfl
      | del => rfl

theorem reach_append : ∀ (l : Loc) (n : Node) (m : Loc), reach n (l ++ m) = (reach n l).bind fun c => reach c m := by
  intro l
  induction l with
  | nil => intro n m; rfl
  | cons k l ih =>
    intro n m
    rw [List.cons_append]
    cases k with
    | name k =>
      cases n with
      | obj fs =>
        simp only [reach]
        cases lookN fs k with
        | none => rfl
        | some c => exact ih c m
      | _ => rfl
    | index i =>
      cases n with
      | arr xs =>
        simp only [reach]
        cases xs[i]? with
        | none => rfl
        | some c => exact ih c m
      | _ => rfl

/-! ### writing -/

theorem lookN_setN (k : Bytes) (v : Node) (fs : List (Bytes × Node)) (n : Bytes) :
    lookN (setN k v fs) n = if n = k then some v else lookN fs n := by
  induction fs with
  | nil =>
    simp only [setN, lookN]
    by_cases h : k = n
    · rw [if_pos h, if_pos h.symm]
    · rw [if_neg h, if_neg (Ne.symm h)]
  | cons p fs ih =>
    obtain ⟨m, c⟩ := p
    unfold setN
    by_cases h : m = k
    · rw [if_pos h]
      by_cases hn : n = k
      · rw [if_pos hn]; unfold lookN; rw [if_pos hn.symm]
      · rw [if_neg hn]
        unfold lookN
        rw [if_neg (Ne.symm hn), if_neg (by rw [h]; exact Ne.symm hn)]
    · rw [if_neg h]
      conv => lhs; unfold lookN
      conv => rhs; rhs; unfold lookN
      by_cases hn : m = n
      · rw [if_pos hn, if_pos hn, if_neg (by rw [← hn]; exact h)]
      · rw [if_neg hn, if_neg hn, ih]

theorem lookN_none (fs : List (Bytes × Node)) (k : Bytes) (h : k ∉ fs.map Prod.fst) : lookN fs k = none := by
  induction fs with
  | nil => rfl
  | cons p fs ih =>
    simp only [List.map_cons, List.mem_cons, not_or] at h
    obtain ⟨m, c⟩ := p
    unfold lookN
    rw [if_neg (Ne.symm h.1)]
    exact ih h.2

theorem lookN_removeN (k : Bytes) (fs : List (Bytes × Node)) (hn : (fs.map Prod.fst).Nodup) (n : Bytes) :
    lookN (removeN k fs) n = if n = k then none else lookN fs n := by
  induction fs with
  | nil => simp [removeN, lookN]
  | cons p fs ih =>
    obtain ⟨m, c⟩ := p
    simp only [List.map_cons, List.nodup_cons] at hn
    unfold removeN
    by_cases h : m = k
    · rw [if_pos h]
      by_cases e : n = k
      · rw [if_pos e]; rw [e, ← h]; exact lookN_none fs m hn.1
      · rw [if_neg e]
        conv => rhs; unfold lookN
        rw [if_neg (by rw [h]; exact Ne.symm e)]
    · rw [if_neg h]
      conv => lhs; unfold lookN
      conv => rhs; rhs; unfold lookN
      by_cases e : m = n
      · rw [if_pos e, if_pos e, if_neg (by rw [← e]; exact h)]
      · rw [if_neg e, if_neg e, ih hn.2]

theorem withAt_nil (n v : Node) (l : Loc) : withAt n [] v l = seen v l := by
  unfold withAt
  rw [if_pos (List.nil_prefix)]
  rfl

/-- One step down. -/
theorem withAt_cons_same (n v c : Node) (k : Key) (t l : Loc) (h : ∀ m, seen n (k :: m) = seen c m) :
    withAt n (k :: t) v (k :: l) = withAt c t v l := by
  unfold withAt
  by_cases ht : t <+: l
  · rw [if_pos ht, if_pos (List.cons_prefix_cons.mpr ⟨rfl, ht⟩)]
    rfl
  · rw [if_neg ht, if_neg (fun hh => ht (List.cons_prefix_cons.mp hh).2), h]

theorem withAt_other (n v : Node) (k : Key) (t : Loc) (l : Loc) (h : ∀ m, l ≠ k :: m) : withAt n (k :: t) v l = seen n l := by
  unfold withAt
  rw [if_neg]
  rintro ⟨s, hs⟩
  exact h (t ++ s) hs.symm

theorem seen_obj (fs : List (Bytes × Node)) (k : Bytes) (l : Loc) : seen (.obj fs) (.name k :: l) = (lookN fs k).bind fun c => seen c l := by
  unfold seen
  simp only [reach]
  cases lookN fs k <;> rfl

theorem seen_arr (xs : List Node) (i : Nat) (l : Loc) : seen (.arr xs) (.index i :: l) = xs[i]?.bind fun c => seen c l := by
  unfold seen
  simp only [reach]
  cases xs[i]? <;> rfl

/-- Changing one field of an object. -/
theorem seen_setField (fs : List (Bytes × Node)) (k : Bytes) (c c' : Node) (t : Loc) (v : Node) (hk : lookN fs k = some c)
    (h : ∀ l, seen c' l = withAt c t v l) (l : Loc) : seen (.obj (setN k c' fs)) l = withAt (.obj fs) (.name k :: t) v l := by
  cases l with
  | nil => rw [withAt_other _ _ _ _ _ (by intro m hm; cases hm)]; rfl
  | cons x l =>
    cases x with
    | index i => rw [withAt_other _ _ _ _ _ (by intro m hm; cases hm)]; rfl
    | name n =>
      rw [seen_obj, lookN_setN]
      by_cases e : n = k
      · rw [if_pos e, e, withAt_cons_same _ _ c]
        · exact h l
        · intro m; rw [seen_obj, hk]; rfl
      · rw [if_neg e, withAt_other _ _ _ _ _ (by intro m hm; cases hm; exact e rfl), seen_obj]

/-- Changing one element of an array. -/
theorem seen_setElem (xs : List Node) (i : Nat) (c c' : Node) (t : Loc) (v : Node) (hi : xs[i]? = some c)
    (h : ∀ l, seen c' l = withAt c t v l) (l : Loc) : seen (.arr (xs.set i c')) l = withAt (.arr xs) (.index i :: t) v l := by
  cases l with
  | nil => rw [withAt_other _ _ _ _ _ (by intro m hm; cases hm)]; rfl
  | cons x l =>
    cases x with
    | name n => rw [withAt_other _ _ _ _ _ (by intro m hm; cases hm)]; rfl
    | index j =>
      rw [seen_arr]
      by_cases e : j = i
      · subst e
        have hl : j < xs.length := by
          by_contra hc
          rw [List.getElem?_eq_none (by omega)] at hi; cases hi
        rw [List.getElem?_set_self hl, withAt_cons_same _ _ c]
        · exact h l
        · intro m; rw [seen_arr, hi]; rfl
      · rw [List.getElem?_set_ne (Ne.symm e), withAt_other _ _ _ _ _ (by intro m hm; cases hm; exact e rfl), seen_arr]

/-- Following a path: the place it leads to, and what changing the node there does. -/
theorem find_place : ∀ (ps : List Bytes) (n c : Node), find n ps = .ok (.node c) →
    ∃ t : Loc, reach n t = some c ∧
      (∀ f l, seen (modify f n ps) l = withAt n t (f c) l) ∧
      ∀ l, Fits n l → l.map Key.text = ps → t = l := by
  intro ps
  induction ps with
  | nil =>
    intro n c h
    cases h
    refine ⟨[], rfl, fun f l => (withAt_nil n (f n) l).symm, fun l _ hl => ?_⟩
    rw [List.map_eq_nil_iff] at hl
    exact hl.symm
  | cons p ps ih =>
    intro n c h
    cases n with
    | leaf v => cases h
    | del => cases h
    | obj fs =>
      unfold find at h
      simp only at h
      cases hu : unescape p with
      | none => rw [hu] at h; cases h
      | some k =>
        rw [hu] at h
        simp only at h
        cases hl : lookN fs k with
        | none => rw [hl] at h; cases h
        | some d =>
          rw [hl] at h
          obtain ⟨t, h1, h2, h3⟩ := ih d c h
          refine ⟨.name k :: t, ?_, ?_, ?_⟩
          · simp only [reach, hl]; exact h1
          · intro f l
            have e : modify f (.obj fs) (p :: ps) = .obj (setN k (modify f d ps) fs) := by
              conv => lhs; unfold modify
              simp only [hu, hl]
            rw [e]
            exact seen_setField fs k d (modify f d ps) t (f c) hl (h2 f) l
          · intro l hf hm
            cases l with
            | nil => cases hm
            | cons x l =>
              cases x with
              | index i => exact absurd hf id
              | name k' =>
                simp only [List.map_cons, List.cons.injEq] at hm
                have ek : k = k' := by
                  have := unescape_escape k'
                  rw [show escape k' = p from hm.1, hu] at this
                  exact Option.some.inj this
                subst ek
                rw [h3 l (hf d hl) hm.2]
    | arr xs =>
      unfold find at h
      simp only at h
      cases ha : atol p with
      | ok i =>
        rw [ha] at h
        simp only [Res.bind] at h
        by_cases hi : 0 ≤ i
        · rw [if_pos hi] at h
          cases hx : xs[i.toNat]? with
          | none => rw [hx] at h; cases h
          | some d =>
            rw [hx] at h
            obtain ⟨t, h1, h2, h3⟩ := ih d c h
            refine ⟨.index i.toNat :: t, ?_, ?_, ?_⟩
            · simp only [reach, hx]; exact h1
            · intro f l
              have e : modify f (.arr xs) (p :: ps) = .arr (xs.set i.toNat (modify f d ps)) := by
                conv => lhs; unfold modify
                simp only [ha, if_pos hi, hx]
              rw [e]
              exact seen_setElem xs i.toNat d (modify f d ps) t (f c) hx (h2 f) l
            · intro l hf hm
              cases l with
              | nil => cases hm
              | cons x l =>
                cases x with
                | name k => exact absurd hf id
                | index j =>
                  simp only [List.map_cons, List.cons.injEq] at hm
                  obtain ⟨hj, hf'⟩ := hf
                  have ej : i = j := by
                    have := atol_decimal j hj
                    rw [show decimal j = p from hm.1, ha] at this
                    exact Res.ok.inj this
                  subst ej
                  rw [Int.toNat_natCast] at hx ⊢
                  rw [h3 l (hf' d hx) hm.2]
        · rw [if_neg hi] at h; cases h
      | throws => rw [ha] at h; cases h
      | ub => rw [ha] at h; cases h
      | diverges => rw [ha] at h; cases h

/-- A key of a container of its kind. -/
def KeyFor : Key → Node → Prop
  | .name _, .obj _ => True
  | .index i, .arr xs => i ≤ xs.length
  | _, _ => False

theorem seen_putIn (key : Key) (v c : Node) (h : KeyFor key c) (l : Loc) : seen (putIn key v c) l = withAt c [key] v l := by
  cases key with
  | name k =>
    cases c with
    | obj fs =>
      show seen (.obj (setN k v fs)) l = _
      cases l with
      | nil => rw [withAt_other _ _ _ _ _ (by intro m hm; cases hm)]; rfl
      | cons x l =>
        cases x with
        | index i => rw [withAt_other _ _ _ _ _ (by intro m hm; cases hm)]; rfl
        | name n =>
          rw [seen_obj, lookN_setN]
          by_cases e : n = k
          · subst e
            rw [if_pos rfl]
            unfold withAt
            rw [if_pos (List.cons_prefix_cons.mpr ⟨rfl, List.nil_prefix⟩)]
            rfl
          · rw [if_neg e, withAt_other _ _ _ _ _ (by intro m hm; cases hm; exact e rfl), seen_obj]
    | _ => exact absurd h id
  | index i =>
    cases c with
    | arr xs =>
      have hi : i ≤ xs.length := h
      show seen (.arr (setA i v xs)) l = _
      have hget : ∀ j, (setA i v xs)[j]? = if j = i then some v else xs[j]? := by
        intro j
        unfold setA
        by_cases hlt : i < xs.length
        · rw [if_pos hlt]
          by_cases e : j = i
          · subst e; rw [if_pos rfl, List.getElem?_set_self hlt]
          · rw [if_neg e, List.getElem?_set_ne (Ne.symm e)]
        · rw [if_neg hlt]
          have hie : i = xs.length := by omega
          by_cases e : j = i
          · rw [if_pos e, e, hie]; simp
          · rw [if_neg e]
            by_cases hj : j < xs.length
            · rw [List.getElem?_append_left hj]
            · rw [List.getElem?_eq_none (by simp; omega), List.getElem?_eq_none (by omega)]
      cases l with
      | nil => rw [withAt_other _ _ _ _ _ (by intro m hm; cases hm)]; rfl
      | cons x l =>
        cases x with
        | name n => rw [withAt_other _ _ _ _ _ (by intro m hm; cases hm)]; rfl
        | index j =>
          rw [seen_arr, hget]
          by_cases e : j = i
          · subst e
            rw [if_pos rfl]
            unfold withAt
            rw [if_pos (List.cons_prefix_cons.mpr ⟨rfl, List.nil_prefix⟩)]
            rfl
          · rw [if_neg e, withAt_other _ _ _ _ _ (by intro m hm; cases hm; exact e rfl), seen_arr]
    | _ => exact absurd h id

/-- Writing inside what is in a place is writing in a deeper place. -/
theorem withAt_append (n c d v : Node) (t s : Loc) (hr : reach n t = some c) (h : ∀ l, seen d l = withAt c s v l) (l : Loc) :
    withAt n t d l = withAt n (t ++ s) v l := by
  unfold withAt
  by_cases ht : t <+: l
  · obtain ⟨m, rfl⟩ := ht
    rw [if_pos (List.prefix_append t m), List.drop_left, h]
    unfold withAt
    by_cases hs : s <+: m
    · rw [if_pos hs, if_pos ((List.prefix_append_right_inj t).mpr hs), List.length_append, ← List.drop_drop, List.drop_left]
    · rw [if_neg hs, if_neg (fun hh => hs ((List.prefix_append_right_inj t).mp hh))]
      unfold seen
      rw [reach_append, hr]
      rfl
  · rw [if_neg ht, if_neg]
    intro hh
    exact ht ((List.prefix_append t s).trans hh)

end Verif.Json
