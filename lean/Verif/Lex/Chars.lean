import Verif.Lex.Cstr
/-!
Long names are cut between characters.
-/
namespace Verif.Lex
open Verif

theorem mblen_table : ∀ c : UInt8, (c < 0x80 → mblen c = 1) ∧ (0xC0 ≤ c → c < 0xE0 → mblen c = 2) ∧ (0xE0 ≤ c → c < 0xF0 → mblen c = 3) ∧
    (0xF0 ≤ c → c < 0xF8 → mblen c = 4) :=
  all_bytes (by decide +kernel)

theorem clipLen_char {u : Bytes} (hu : Character u) (room : Nat) (s : Bytes) :
    clipLen room (u ++ s) = if u.length > room then 0 else if u.length = room then u.length else u.length + clipLen (room - u.length) s := by
  cases hu with
  | one a h1 h2 => rw [List.singleton_append, clipLen, if_neg h1, (mblen_table a).1 h2]; rfl
  | two a b h1 h2 h3 =>
    have h0 : a ≠ 0 := by rintro rfl; exact absurd h1 (by decide)
    rw [List.cons_append, clipLen, if_neg h0, (mblen_table a).2.1 h1 h2]; rfl
  | three a b c h1 h2 h3 h4 =>
    have h0 : a ≠ 0 := by rintro rfl; exact absurd h1 (by decide)
    rw [List.cons_append, clipLen, if_neg h0, (mblen_table a).2.2.1 h1 h2]; rfl
  | four a b c d h1 h2 h3 h4 h5 =>
    have h0 : a ≠ 0 := by rintro rfl; exact absurd h1 (by decide)
    rw [List.cons_append, clipLen, if_neg h0, (mblen_table a).2.2.2 h1 h2]; rfl

theorem clipLen_chars : ∀ (cs : List Bytes) (room : Nat), (∀ u ∈ cs, Character u) →
    ∃ k ≤ cs.length, clipLen room cs.flatten = (cs.take k).flatten.length ∧ (cs.take k).flatten.length ≤ room ∧
      (k < cs.length → room < (cs.take (k + 1)).flatten.length)
  | [], room, _ => ⟨0, by simp, by simp [clipLen], by simp, by simp⟩
  | u :: cs, room, h => by
    rw [List.flatten_cons, clipLen_char (h u (by simp))]
    split
    · rename_i hr
      exact ⟨0, by simp, by simp, by simp, fun _ => by simp; omega⟩
    · split
      · rename_i hr he
        refine ⟨1, by simp, by simp, by simp; omega, fun hl => ?_⟩
        cases cs with
        | nil => simp at hl
        | cons v cs =>
          have : 0 < v.length := by cases h v (by simp) <;> simp
          simp; omega
      · obtain ⟨k, hk, h1, h2, h3⟩ := clipLen_chars cs (room - u.length) fun v hv => h v (by simp [hv])
        refine ⟨k + 1, by simp; omega, ?_, ?_, fun hl => ?_⟩
        · rw [List.take_succ_cons, List.flatten_cons, List.length_append, h1]
        · rw [List.take_succ_cons, List.flatten_cons, List.length_append]; omega
        · have := h3 (by simpa using hl)
          rw [List.take_succ_cons, List.flatten_cons, List.length_append]; omega

theorem truncName_chars (cs : List Bytes) (h : ∀ u ∈ cs, Character u) :
    ∃ k ≤ cs.length, truncName cs.flatten = (cs.take k).flatten ∧ (k < cs.length → 64 ≤ (cs.take (k + 1)).flatten.length) := by
  unfold truncName NAMEDATALEN
  split
  · obtain ⟨k, hk, h1, h2, h3⟩ := clipLen_chars cs 63 h
    refine ⟨k, hk, ?_, fun hl => h3 hl⟩
    rw [h1]
    have e : cs.flatten = (cs.take k).flatten ++ (cs.drop k).flatten := by rw [← List.flatten_append, List.take_append_drop]
    conv_lhs => rw [e]
    exact List.take_left
  · exact ⟨cs.length, le_rfl, by rw [List.take_length], fun hl => absurd hl (lt_irrefl _)⟩

theorem char_no_zero {u : Bytes} (h : Character u) : u ≠ [] ∧ 0 ∉ u := by
  cases h with
  | one a h1 h2 => exact ⟨by simp, by simpa using Ne.symm h1⟩
  | two a b h1 h2 h3 =>
    have h0 : a ≠ 0 := by rintro rfl; exact absurd h1 (by decide)
    exact ⟨by simp, by simp [h0.symm, h3.symm]⟩
  | three a b c h1 h2 h3 h4 =>
    have h0 : a ≠ 0 := by rintro rfl; exact absurd h1 (by decide)
    exact ⟨by simp, by simp [h0.symm, h3.symm, h4.symm]⟩
  | four a b c d h1 h2 h3 h4 h5 =>
    have h0 : a ≠ 0 := by rintro rfl; exact absurd h1 (by decide)
    exact ⟨by simp, by simp [h0.symm, h3.symm, h4.symm, h5.symm]⟩

end Verif.Lex
