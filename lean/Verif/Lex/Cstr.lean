import Verif.Lex.Round
/-! Queries as C strings, long names and large numbers. -/
namespace Verif.Lex
open Verif
open Verif.Text (showNat natOf isDigit isDigits showNat_digits natOf_showNat)

theorem cstr_append {x : Bytes} (h : 0 ∉ x) (r : Bytes) : cstr (x ++ r) = x ++ cstr r := by
  unfold cstr
  rw [List.takeWhile_append_of_pos]
  intro c hc
  simp only [bne_iff_ne, ne_eq]
  rintro rfl; exact h hc

theorem cstr_prefix (r : Bytes) : ∃ t, r = cstr r ++ t := ⟨r.dropWhile fun c => c != 0, List.takeWhile_append_dropWhile.symm⟩

theorem cstr_head {r : Bytes} {c : UInt8} (h : r.head? ≠ some c) : (cstr r).head? ≠ some c := by
  obtain ⟨t, e⟩ := cstr_prefix r
  intro hh
  apply h
  rw [e]
  cases hc : cstr r with
  | nil => rw [hc] at hh; simp at hh
  | cons a b => rw [hc] at hh; simpa using hh

theorem cstr_continues {r : Bytes} (h : ¬ Continues r) : ¬ Continues (cstr r) := by
  rintro ⟨w, r', hw, hn, e⟩
  obtain ⟨t, e'⟩ := cstr_prefix r
  exact h ⟨w, r' ++ t, hw, hn, by rw [e', e]; simp⟩

theorem double_zero {q : UInt8} {s : Bytes} (h : 0 ∉ s) : 0 ∉ double q s := by
  unfold double
  simp only [List.mem_flatMap, not_exists, not_and]
  intro c hc h0
  split at h0 <;> (simp at h0; exact h (h0 ▸ hc))

theorem double_append (q : UInt8) (a b : Bytes) : double q (a ++ b) = double q a ++ double q b := by simp [double]

theorem quoteText_zero {s : Bytes} (h : 0 ∉ s) : 0 ∉ quoteText s := by
  have := double_zero (q := 39) h
  simp [quoteText, this]

theorem split_zero {s : Bytes} (h : 0 ∈ s) : ∃ a b, s = a ++ 0 :: b ∧ 0 ∉ a := by
  obtain ⟨a, b, e, hn⟩ := List.eq_append_cons_of_mem h
  exact ⟨a, b, e, hn⟩

theorem ascii_mblen : ∀ c : UInt8, c < 128 → mblen c = 1 := by apply all_bytes; decide +kernel

theorem clipLen_ascii : ∀ (room : Nat) (s : Bytes), 0 < room → room ≤ s.length → (∀ c ∈ s.take room, c ≠ 0 ∧ c < 128) → clipLen room s = room
  | _, [], h0, h, _ => by simp at h; omega
  | 0, _ :: _, h0, _, _ => by omega
  | room + 1, c :: r, _, h, hs => by
    have hc := hs c (by simp)
    rw [clipLen, if_neg hc.1, ascii_mblen c hc.2, if_neg (by omega)]
    by_cases h1 : room = 0
    · rw [if_pos (by omega)]; omega
    · rw [if_neg (by omega)]
      have := clipLen_ascii room r (by omega) (by simpa using h) (fun d hd => hs d (by simp [hd]))
      simp only [Nat.add_sub_cancel, Nat.sub_self, List.drop_zero]
      rw [this]; omega

theorem clipLen_le : ∀ (n : Nat) (s : Bytes), s.length ≤ n → ∀ room, clipLen room s ≤ room
  | _, [], _, _ => by rw [clipLen]; omega
  | 0, _ :: _, h, _ => by simp at h
  | n + 1, c :: r, h, room => by
    rw [clipLen]
    split
    · omega
    · split
      · omega
      · split
        · omega
        · have := clipLen_le n (r.drop (mblen c - 1)) (by simp at h ⊢; omega) (room - mblen c)
          omega

theorem truncName_long {a b : Bytes} (ha : a.length = 63) (hc : ∀ c ∈ a, c ≠ 0 ∧ c < 128) (hb : b ≠ []) : truncName (a ++ b) = a := by
  have hl : 0 < b.length := List.length_pos_iff.mpr hb
  unfold truncName NAMEDATALEN
  rw [if_pos (by simp; omega), clipLen_ascii 63 _ (by omega) (by simp; omega)]
  · rw [← ha]; exact List.take_left
  · intro c h
    rw [← ha, List.take_left] at h; exact hc c h

theorem truncName_prefix (s : Bytes) : truncName s <+: s ∧ (truncName s).length < 64 := by
  unfold truncName NAMEDATALEN
  split
  · have := clipLen_le _ s le_rfl 63
    exact ⟨List.take_prefix _ _, by simp; omega⟩
  · exact ⟨List.prefix_refl _, by omega⟩

theorem wrap32_large {n : Nat} (h1 : 2 ^ 31 ≤ n) : wrap32 n ≠ n ∧ wrap32 n % 2 ^ 32 = (n : Int) % 2 ^ 32 ∧ -2 ^ 31 ≤ wrap32 n ∧ wrap32 n < 2 ^ 31 := by
  unfold wrap32
  split <;> omega

theorem showNat_zero (n : Nat) : 0 ∉ showNat n := by
  have hd := showNat_digits n
  simp only [isDigits, Bool.and_eq_true, List.all_eq_true] at hd
  intro h
  exact absurd (hd.2 0 h) (by decide)

theorem lex_nil : lex [] = .ok [] := by rw [lex]

theorem lexSql_nat (n : Nat) : lexSql (showNat n) = .ok [intLit (showNat n)] := by
  unfold lexSql
  rw [cstr_self (fun c hc h => showNat_zero n (h ▸ hc))]
  have := lex_int n (r := []) (fun c hc => by simp at hc)
  rw [List.append_nil] at this
  rw [this, lex_nil]; rfl

end Verif.Lex
