import Verif.Lex.Total
/-! Keywords are found, and nothing else is. -/
namespace Verif.Lex
open Verif
open Verif.Text (natOf isDigit hexDigit)

theorem cmp_eq : ∀ {a b : Bytes}, cmpBytes a b = .eq ↔ a = b
  | [], [] => by simp [cmpBytes]
  | [], _ :: _ => by simp [cmpBytes]
  | _ :: _, [] => by simp [cmpBytes]
  | a :: as, b :: bs => by
    rw [cmpBytes]
    split
    · rename_i h
      simp only [reduceCtorEq, List.cons.injEq, false_iff, not_and]
      rintro rfl; exact absurd h (UInt8.lt_irrefl a)
    · split
      · rename_i h
        simp only [reduceCtorEq, List.cons.injEq, false_iff, not_and]
        rintro rfl; exact absurd h (UInt8.lt_irrefl a)
      · rename_i h1 h2
        have : a = b := UInt8.le_antisymm (UInt8.not_lt.mp h2) (UInt8.not_lt.mp h1)
        rw [cmp_eq, List.cons.injEq]; simp [this]

theorem cmp_gt : ∀ {a b : Bytes}, cmpBytes a b = .gt ↔ cmpBytes b a = .lt
  | [], [] => by simp [cmpBytes]
  | [], _ :: _ => by simp [cmpBytes]
  | _ :: _, [] => by simp [cmpBytes]
  | a :: as, b :: bs => by
    rw [cmpBytes, cmpBytes]
    by_cases h1 : a < b
    · rw [if_pos h1, if_neg (UInt8.lt_asymm h1), if_pos h1]; simp
    · by_cases h2 : b < a
      · rw [if_neg h1, if_pos h2, if_pos h2]; simp
      · rw [if_neg h1, if_neg h2, if_neg h2, if_neg h1]; exact cmp_gt

theorem cmp_trans : ∀ {a b c : Bytes}, cmpBytes a b = .lt → cmpBytes b c = .lt → cmpBytes a c = .lt
  | [], [], _, h, _ => by simp [cmpBytes] at h
  | [], _ :: _, [], _, h => by simp [cmpBytes] at h
  | [], _ :: _, _ :: _, _, _ => by simp [cmpBytes]
  | _ :: _, [], _, h, _ => by simp [cmpBytes] at h
  | _ :: _, _ :: _, [], _, h => by simp [cmpBytes] at h
  | a :: as, b :: bs, c :: cs, h1, h2 => by
    rw [cmpBytes] at h1 h2 ⊢
    split at h1
    · rename_i hab
      split at h2
      · rename_i hbc; rw [if_pos (UInt8.lt_trans hab hbc)]
      · split at h2
        · cases h2
        · rename_i x y
          have : b = c := UInt8.le_antisymm (UInt8.not_lt.mp y) (UInt8.not_lt.mp x)
          rw [← this, if_pos hab]
    · split at h1
      · cases h1
      · rename_i x y
        have e : a = b := UInt8.le_antisymm (UInt8.not_lt.mp y) (UInt8.not_lt.mp x)
        subst e
        split at h2
        · rename_i hbc; rw [if_pos hbc]
        · split at h2
          · cases h2
          · rename_i p q; rw [if_neg p, if_neg q]; exact cmp_trans h1 h2

/-- A table in the order of `strcmp`. -/
def Sorted (table : List Bytes) : Prop := table.Pairwise fun a b => cmpBytes a b = .lt

theorem search_sound (table : List Bytes) (w : Bytes) : ∀ (n low : Nat) (k : Bytes), search table w low n = some k → k = w ∧ k ∈ table := by
  intro n
  induction n using Nat.strong_induction_on with
  | _ n ih =>
    intro low k h
    rw [search] at h
    split at h
    · cases h
    · split at h
      · cases h
      · rename_i m hm
        split at h
        · rename_i hc; cases h; exact ⟨cmp_eq.mp hc, List.mem_of_getElem? hm⟩
        · exact ih _ (by omega) _ _ h
        · exact ih _ (by omega) _ _ h

theorem search_complete {table : List Bytes} (hs : Sorted table) (w : Bytes) : ∀ (n low i : Nat), low + n ≤ table.length →
    low ≤ i → i < low + n → table[i]? = some w → search table w low n = some w := by
  intro n
  induction n using Nat.strong_induction_on with
  | _ n ih =>
    intro low i hl h1 h2 hi
    have hmid : low + (n - 1) / 2 < table.length := by omega
    rw [search, if_neg (by omega), List.getElem?_eq_getElem hmid]
    obtain ⟨hil, hi⟩ := List.getElem?_eq_some_iff.mp hi
    have hord := List.pairwise_iff_getElem.mp hs
    simp only
    split
    · rename_i hc; rw [cmp_eq.mp hc]
    · rename_i hc
      have hlt : low + (n - 1) / 2 < i := by
        rcases Nat.lt_trichotomy i (low + (n - 1) / 2) with h | h | h
        · have h3 := cmp_gt.mpr (hord i _ hil hmid h)
          rw [hi, hc] at h3; cases h3
        · subst h; rw [hi, cmp_eq.mpr rfl] at hc; cases hc
        · exact h
      exact ih _ (by omega) _ i (by omega) (by omega) (by omega) (List.getElem?_eq_some_iff.mpr ⟨hil, hi⟩)
    · rename_i hc
      have hlt : i < low + (n - 1) / 2 := by
        rcases Nat.lt_trichotomy i (low + (n - 1) / 2) with h | h | h
        · exact h
        · subst h; rw [hi, cmp_eq.mpr rfl] at hc; cases hc
        · have h3 := hord _ i hmid hil h
          rw [hi, hc] at h3; cases h3
      exact ih _ (by omega) _ i (by omega) (by omega) (by omega) (List.getElem?_eq_some_iff.mpr ⟨hil, hi⟩)

theorem table_chain : keywordTable.IsChain (fun a b => cmpBytes a b = .lt) := by decide +kernel

theorem table_sorted : Sorted keywordTable := by
  haveI : Trans (fun a b : Bytes => cmpBytes a b = .lt) (fun a b : Bytes => cmpBytes a b = .lt) (fun a b : Bytes => cmpBytes a b = .lt) :=
    ⟨cmp_trans⟩
  exact List.isChain_iff_pairwise.mp table_chain

theorem table_short : ∀ k ∈ keywordTable, k.length < 64 := by decide +kernel

theorem lower_eq (s : Bytes) : s.map lowerByte = lower s := by
  simp [lower, lowerByte]

theorem lower_length (s : Bytes) : (lower s).length = s.length := by simp [lower]

/-- Words are looked up in any case, and only those of the table are found. -/
theorem lookup_iff (w k : Bytes) : lookup w = some k ↔ k = lower w ∧ k ∈ keywordTable := by
  unfold lookup NAMEDATALEN
  constructor
  · intro h
    split at h
    · cases h
    · have := search_sound _ _ _ _ _ h
      rw [lower_eq] at this; exact this
  · rintro ⟨rfl, hk⟩
    have hlen := table_short _ hk
    rw [lower_length] at hlen
    rw [if_neg (by omega), lower_eq]
    obtain ⟨i, hi⟩ := List.getElem?_of_mem hk
    exact search_complete table_sorted _ _ 0 i (by omega) (by omega) (by
      have := (List.getElem?_eq_some_iff.mp hi).1; omega) hi

theorem lookup_none {w : Bytes} (h : lower w ∉ keywordTable) : lookup w = none := by
  cases hk : lookup w with
  | none => rfl
  | some k => obtain ⟨rfl, hm⟩ := (lookup_iff w k).mp hk; exact absurd hm h

end Verif.Lex
