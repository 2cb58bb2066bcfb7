import Verif.Lex.Cstr
/-! Texts with all kinds of escapes. -/
namespace Verif.Lex
open Verif
open Verif.Text (natOf isDigit hexDigit encodeUtf8)

theorem equoted_bs {r b r' : Bytes} (h : escape r = .ok (b, r')) : equoted (92 :: r) = (equoted r').map' fun p => (b ++ p.1, p.2) := by
  have hl : r'.length ≤ r.length := by
    rcases escape_fine r with ⟨p, hp, hl⟩ | hp
    · rw [h] at hp; cases hp; exact hl
    · rw [h] at hp; cases hp
  rw [equoted]
  simp only [show (92 : UInt8) ≠ 39 by decide, if_false, if_true, h]
  rw [dif_pos hl]

theorem equoted_two (r : Bytes) : equoted (39 :: 39 :: r) = (equoted r).map' fun p => (39 :: p.1, p.2) := by
  rw [equoted]; simp

theorem equoted_other {c : UInt8} (r : Bytes) (h1 : c ≠ 39) (h2 : c ≠ 92) : equoted (c :: r) = (equoted r).map' fun p => (c :: p.1, p.2) := by
  rw [equoted]; simp [h1, h2]

theorem hexVal_eq (c : UInt8) : hexVal c = hexDigit c := rfl

theorem fold_hex : ∀ (d : Bytes) (vs : List Nat) (a : Nat), d.map hexVal = vs.map some →
    d.foldl (fun n c => match n, hexDigit c with
    | some n, some d => some (16 * n + d)
    | _, _ => none) (some a) = some (vs.foldl (fun a v => 16 * a + v) a)
  | [], [], a, _ => rfl
  | [], _ :: _, _, h => by simp at h
  | _ :: _, [], _, h => by simp at h
  | c :: d, v :: vs, a, h => by
    simp only [List.map_cons, List.cons.injEq] at h
    rw [List.foldl_cons, List.foldl_cons, ← hexVal_eq, h.1]
    exact fold_hex d vs _ h.2

theorem hexOf_eq {d : Bytes} {n : Nat} (h : Hex d n) : hexOf d = some n := by
  obtain ⟨vs, h1, rfl⟩ := h
  cases d with
  | nil => cases vs with
    | nil => rfl
    | cons _ _ => simp at h1
  | cons c d => exact fold_hex (c :: d) vs 0 h1

theorem hex_digits {d : Bytes} {n : Nat} (h : Hex d n) : ∀ c ∈ d, (hexDigit c).isSome = true := by
  obtain ⟨vs, h1, -⟩ := h
  intro c hc
  have : hexVal c ∈ d.map hexVal := List.mem_map_of_mem hc
  rw [h1] at this
  obtain ⟨v, -, hv⟩ := List.mem_map.mp this
  rw [← hexVal_eq, ← hv]; rfl

theorem oct_facts : ∀ n, n < 8 → isOct (UInt8.ofNat (48 + n)) = true ∧ (UInt8.ofNat (48 + n)).toNat - 48 = n := by decide

theorem escape_octal {a b c : Nat} (ha : a < 4) (hb : b < 8) (hc : c < 8) (r : Bytes) :
    escape (UInt8.ofNat (48 + a) :: UInt8.ofNat (48 + b) :: UInt8.ofNat (48 + c) :: r) = .ok ([UInt8.ofNat (64 * a + 8 * b + c)], r) := by
  obtain ⟨a1, a2⟩ := oct_facts a (by omega)
  obtain ⟨b1, b2⟩ := oct_facts b hb
  obtain ⟨c1, c2⟩ := oct_facts c hc
  unfold escape
  simp only [a1, if_true, List.take_succ_cons, List.take_zero, List.takeWhile, b1, c1, List.foldl_cons, List.foldl_nil, a2, b2, c2,
    List.length_cons, List.length_nil, List.drop_succ_cons, List.drop_zero]
  congr 4
  omega

theorem escape_hex {d : Bytes} {n : Nat} (hl : d.length = 2) (hn : Hex d n) (r : Bytes) : escape (120 :: (d ++ r)) = .ok ([UInt8.ofNat n], r) := by
  have ht : (d ++ r).take 2 = d := by rw [← hl]; exact List.take_left
  have hw : d.takeWhile (fun c => (hexDigit c).isSome) = d := List.takeWhile_eq_self_iff.mpr (hex_digits hn)
  unfold escape
  simp only [show isOct 120 = false by decide, Bool.false_eq_true, if_false, if_true, ht, hw]
  rw [if_neg (by rintro rfl; simp at hl), hexOf_eq hn]
  simp only [List.drop_left]

theorem unicode_four {d : Bytes} {n : Nat} (hl : d.length = 4) (hn : Hex d n) (r : Bytes) : unicode (117 :: (d ++ r)) = some (n, r) := by
  unfold unicode
  have ht : (d ++ r).take 4 = d := by rw [← hl]; exact List.take_left
  have hd : (d ++ r).drop 4 = r := by rw [← hl]; exact List.drop_left
  simp only [ht, hexOf_eq hn, hd, Option.map_some]
  rw [if_neg (by simp; omega)]

theorem unicode_eight {d : Bytes} {n : Nat} (hl : d.length = 8) (hn : Hex d n) (r : Bytes) : unicode (85 :: (d ++ r)) = some (n, r) := by
  unfold unicode
  have ht : (d ++ r).take 8 = d := by rw [← hl]; exact List.take_left
  have hd : (d ++ r).drop 8 = r := by rw [← hl]; exact List.drop_left
  simp only [ht, hexOf_eq hn, hd, Option.map_some]
  rw [if_neg (by simp; omega)]

theorem escape_point {c : UInt8} {n : Nat} {r r1 : Bytes} (hc : c = 117 ∨ c = 85) (hu : unicode (c :: r) = some (n, r1)) (h0 : n ≠ 0)
    (hs : n < 0xD800 ∨ 0xE000 ≤ n) (hm : n ≤ 0x10FFFF) : escape (c :: r) = .ok (encodeUtf8 n, r1) := by
  have e1 : isOct c = false := by rcases hc with rfl | rfl <;> decide
  have e2 : c ≠ 120 := by rcases hc with rfl | rfl <;> decide
  unfold escape
  simp only [e1, Bool.false_eq_true, if_false, if_neg e2, if_pos hc, hu]
  rw [if_neg (by omega), if_neg (by omega), addUnicode, if_neg (by omega)]; rfl

theorem escape_pair {d e : Bytes} {n m : Nat} (hd : d.length = 4) (he : e.length = 4) (hn : Hex d n) (hm : Hex e m)
    (h1 : 0xD800 ≤ n ∧ n < 0xDC00) (h2 : 0xDC00 ≤ m ∧ m < 0xE000) (r : Bytes) :
    escape (117 :: (d ++ 92 :: 117 :: (e ++ r))) = .ok (encodeUtf8 (0x10000 + (n - 0xD800) * 1024 + (m - 0xDC00)), r) := by
  unfold escape
  simp only [show isOct 117 = false by decide, Bool.false_eq_true, if_false, show (117 : UInt8) ≠ 120 by decide, true_or, if_true,
    unicode_four hd hn, unicode_four he hm]
  rw [if_pos (by omega), if_pos (by omega), addUnicode, if_neg (by omega)]
  have : n % 1024 * 1024 + 65536 + m % 1024 = 65536 + (n - 55296) * 1024 + (m - 56320) := by omega
  rw [this]; rfl

theorem other_escape : ∀ c : UInt8, c ∉ ([98, 102, 110, 114, 116, 120, 117, 85, 48, 49, 50, 51, 52, 53, 54, 55] : Bytes) →
    isOct c = false ∧ c ≠ 120 ∧ ¬ (c = 117 ∨ c = 85) ∧ unescape c = c := by
  apply all_bytes; decide +kernel

theorem equoted_escaped {x s : Bytes} (h : Escaped x s) (t : Bytes) : equoted (x ++ t) = (equoted t).map' fun p => (s ++ p.1, p.2) := by
  induction h with
  | nil => simp only [List.nil_append]; cases equoted t <;> rfl
  | plain c x s hq hb _ ih =>
    simp only [List.cons_append, List.nil_append]
    rw [equoted_other _ hq hb, ih, map'_map']
  | quotes x s _ ih =>
    simp only [List.cons_append, List.nil_append]
    rw [equoted_two, ih, map'_map']
  | letter e c x s he _ ih =>
    simp only [List.cons_append, List.nil_append]
    have : escape (e :: (x ++ t)) = .ok ([c], x ++ t) := by
      simp only [List.mem_cons, Prod.mk.injEq, List.not_mem_nil, or_false] at he
      rcases he with ⟨rfl, rfl⟩ | ⟨rfl, rfl⟩ | ⟨rfl, rfl⟩ | ⟨rfl, rfl⟩ | ⟨rfl, rfl⟩ <;> rfl
    rw [equoted_bs this, ih, map'_map']; rfl
  | other c x s hc _ ih =>
    simp only [List.cons_append, List.nil_append]
    obtain ⟨h1, h2, h3, h4⟩ := other_escape c hc
    have : escape (c :: (x ++ t)) = .ok ([c], x ++ t) := by
      unfold escape
      simp only [h1, Bool.false_eq_true, if_false, if_neg h2, if_neg h3, h4]
    rw [equoted_bs this, ih, map'_map']; rfl
  | octal a b c ha hb hc x s _ ih =>
    simp only [List.cons_append, List.nil_append]
    rw [equoted_bs (escape_octal ha hb hc _), ih, map'_map']; rfl
  | hex d n hl hn x s _ ih =>
    simp only [List.cons_append, List.nil_append, List.append_assoc]
    rw [equoted_bs (escape_hex hl hn _), ih, map'_map']; rfl
  | unicode d n hl hn h0 hs x s _ ih =>
    simp only [List.cons_append, List.nil_append, List.append_assoc]
    have hb : n ≤ 0x10FFFF := by
      have : ∀ (vs : List Nat) (a : Nat), (∀ v ∈ vs, v < 16) → vs.foldl (fun a v => 16 * a + v) a < (a + 1) * 16 ^ vs.length := by
        intro vs
        induction vs with
        | nil => intro a _; simp
        | cons v vs ih =>
          intro a h
          have h1 := ih (16 * a + v) fun w hw => h w (by simp [hw])
          have h2 := h v (by simp)
          rw [List.foldl_cons, List.length_cons, pow_succ]
          calc _ < (16 * a + v + 1) * 16 ^ vs.length := h1
            _ ≤ ((a + 1) * 16) * 16 ^ vs.length := Nat.mul_le_mul_right _ (by omega)
            _ = _ := by ring
      obtain ⟨vs, e1, rfl⟩ := hn
      have hvl : vs.length = 4 := by have := congrArg List.length e1; simpa [hl] using this.symm
      have h16 : ∀ v ∈ vs, v < 16 := by
        intro v hv
        have : some v ∈ d.map hexVal := by rw [e1]; exact List.mem_map_of_mem hv
        obtain ⟨c, -, hc⟩ := List.mem_map.mp this
        have key : ∀ c : UInt8, ∀ v ∈ hexVal c, v < 16 := by apply all_bytes; decide +kernel
        exact key c v hc
      have := this vs 0 h16
      rw [hvl] at this; omega
    rw [equoted_bs (escape_point (.inl rfl) (unicode_four hl hn _) h0 hs hb), ih, map'_map']
  | unicode8 d n hl hn h0 hs hm x s _ ih =>
    simp only [List.cons_append, List.nil_append, List.append_assoc]
    rw [equoted_bs (escape_point (.inr rfl) (unicode_eight hl hn _) h0 hs hm), ih, map'_map']
  | pair d e n m hd he hn hm h1 h2 x s _ ih =>
    simp only [List.cons_append, List.nil_append, List.append_assoc]
    rw [equoted_bs (escape_pair hd he hn hm h1 h2 _), ih, map'_map']

theorem lex_escapes {x s : Bytes} (h : Escaped x s) {r : Bytes} (h1 : r.head? ≠ some 39) (h2 : ¬ Continues r) :
    lex ([69, 39] ++ x ++ [39] ++ r) = (lex r).map' (.sconst (cstr s) :: ·) := by
  have e : [69, 39] ++ x ++ [39] ++ r = 69 :: 39 :: (x ++ 39 :: r) := by simp
  rw [e]
  apply lex_some
  rw [step_e, equoted_escaped h, equoted_stop h1 (cont_none h2)]
  simp

end Verif.Lex
