import Verif.Table.Standard
import Verif.Mvcc.Lemmas
/-! Facts about the delete stamps of a row group with at most 1024 rows. -/
namespace Verif.Table
open Verif.Mvcc (CAP Mgr Txn NOT_DELETED Vec Info Sel toVec delLoop useVersion useDeleted selectLoop)
variable {α : Type}

/-- The delete stamps of the first vector. -/
def Stamps (vers : Option Mgr) (d : Nat → Nat) : Prop :=
  match vers with
  | none => d = fun _ => NOT_DELETED
  | some m =>
    match m.chunk 0 with
    | none => d = fun _ => NOT_DELETED
    | some (.vec v) => v.same = true ∧ v.insertId = 0 ∧ v.anyDel = true ∧ v.deleted = d
    | some (.const _ _) => False

/-- The number of stamped rows. -/
def stamped (d : Nat → Nat) (n : Nat) : Nat := ((List.range n).filter fun i => decide (d i ≠ NOT_DELETED)).length

/-- Row `i` of the `n` rows is deleted iff `dead i`. -/
def VersOk (vers : Option Mgr) (version n : Nat) (dead : Nat → Bool) : Prop :=
  ∃ d, Stamps vers d ∧ (∀ i, i < n → (dead i = true ↔ d i ≠ NOT_DELETED)) ∧
    (∀ i, d i = NOT_DELETED ∨ d i ≤ version ∧ i < n) ∧ version ≤ stamped d n

theorem VersOk.new (n : Nat) (dead : Nat → Bool) (h : ∀ i, i < n → dead i = false) : VersOk none 0 n dead :=
  ⟨fun _ => NOT_DELETED, rfl, fun i hi => by simp [h i hi], fun _ => .inl rfl, by simp⟩

theorem stamped_le (d : Nat → Nat) (n : Nat) : stamped d n ≤ n := by
  unfold stamped
  have := List.length_filter_le (fun i => decide (d i ≠ NOT_DELETED)) (List.range n)
  simpa using this

theorem stamped_mono (d : Nat → Nat) {n m : Nat} (h : n ≤ m) : stamped d n ≤ stamped d m := by
  unfold stamped
  obtain ⟨k, rfl⟩ : ∃ k, m = n + k := ⟨m - n, by omega⟩
  rw [List.range_add, List.filter_append, List.length_append]
  omega

theorem VersOk.grow {vers : Option Mgr} {version n m : Nat} {dead : Nat → Bool} (h : VersOk vers version n dead) (hnm : n ≤ m)
    (hd : ∀ i, n ≤ i → i < m → dead i = false) : VersOk vers version m dead := by
  obtain ⟨d, h1, h2, h3, h4⟩ := h
  refine ⟨d, h1, ?_, ?_, ?_⟩
  · intro i hi
    by_cases hin : i < n
    · exact h2 i hin
    · rw [hd i (by omega) hi]
      rcases h3 i with h | h
      · simp [h]
      · omega
  · intro i
    rcases h3 i with h | h
    · exact .inl h
    · exact .inr ⟨h.1, by omega⟩
  · have := stamped_mono d hnm; omega

theorem VersOk.congr {vers : Option Mgr} {version n : Nat} {dead dead' : Nat → Bool} (h : VersOk vers version n dead)
    (hd : ∀ i, i < n → dead' i = dead i) : VersOk vers version n dead' := by
  obtain ⟨d, h1, h2, h3, h4⟩ := h
  exact ⟨d, h1, fun i hi => by rw [hd i hi]; exact h2 i hi, h3, h4⟩

theorem not_small {v : Nat} (h : v ≤ CAP) : v < NOT_DELETED := by
  unfold CAP at h
  unfold NOT_DELETED
  omega

/-- The rows a scan sees. -/
theorem VersOk.select {g : RowGroup α} {n : Nat} {dead : Nat → Bool} (h : VersOk g.vers g.version n dead) (hn : n ≤ CAP) :
    ∃ s, g.select 0 n = .ok s ∧ s.rows n = ((List.range n).filter fun i => !dead i) ∧
      s.count = ((List.range n).filter fun i => !dead i).length := by
  obtain ⟨d, h1, h2, h3, h4⟩ := h
  have hv : g.version < NOT_DELETED := not_small (by have := stamped_le d n; omega)
  have hall : (∀ i, d i = NOT_DELETED) → ((⟨n, []⟩ : Sel).rows n = ((List.range n).filter fun i => !dead i) ∧
      (⟨n, []⟩ : Sel).count = ((List.range n).filter fun i => !dead i).length) := by
    intro hd
    have : ((List.range n).filter fun i => !dead i) = List.range n := by
      apply Mvcc.filter_range_all
      intro i hi
      have := (h2 i hi).not
      simp only [hd i, ne_eq, not_true, not_false_eq_true, iff_true, Bool.not_eq_true] at this
      simp [this]
    rw [this]
    simp [Sel.rows]
  unfold RowGroup.select
  unfold Stamps at h1
  cases hg : g.vers with
  | none =>
    rw [hg] at h1
    simp only at h1
    exact ⟨_, rfl, hall (by simp [h1])⟩
  | some m =>
    rw [hg] at h1
    simp only at h1 ⊢
    unfold Mgr.select
    cases hc : m.chunk 0 with
    | none =>
      rw [hc] at h1
      simp only at h1
      exact ⟨_, rfl, hall (by simp [h1])⟩
    | some c =>
      rw [hc] at h1
      cases c with
      | const a b => exact h1.elim
      | vec v =>
        simp only at h1
        obtain ⟨hs, hi, ha, hd⟩ := h1
        simp only [Info.select, Vec.select, hs, ha, Bool.not_true, Bool.and_false, Bool.false_eq_true, if_false, if_true, hi]
        have hu : useVersion ⟨g.version, g.version⟩ 0 = true := by
          unfold useVersion
          simp only [Bool.or_eq_true, decide_eq_true_eq, beq_iff_eq]
          omega
        rw [hu]
        simp only [Bool.not_true, Bool.false_eq_true, if_false]
        have hp : (List.range n).filter (fun i => useDeleted ⟨g.version, g.version⟩ (v.deleted i)) = (List.range n).filter fun i => !dead i := by
          apply List.filter_congr
          intro i hi'
          have hin := List.mem_range.mp hi'
          rw [hd]
          unfold useDeleted useVersion
          congr 1
          have := h2 i hin
          cases hdi : dead i with
          | true =>
            have h5 := this.mp hdi
            have h6 := (h3 i).resolve_left h5
            simp only [Bool.or_eq_true, decide_eq_true_eq, beq_iff_eq]
            omega
          | false =>
            rw [hdi] at this
            have h5 : d i = NOT_DELETED := by by_contra hne; exact absurd (this.mpr hne) (by simp)
            rw [h5]
            simp only [Bool.or_eq_false_iff, decide_eq_false_iff_not, beq_eq_false_iff_ne, ne_eq]
            omega
        unfold selectLoop
        rw [if_neg (by omega)]
        simp only [hp]
        refine ⟨_, rfl, ?_, rfl⟩
        unfold Sel.rows
        simp only
        split
        · next h =>
          have hall' : ∀ x ∈ List.range n, (!dead x) = true := by
            apply List.length_filter_eq_length_iff.mp
            rw [h, List.length_range]
          exact (List.filter_eq_self.mpr hall').symm
        · exact List.take_length

theorem delLoop_ok {tx : Nat} (htx : tx ≠ NOT_DELETED) : ∀ (rows : List Nat) (d : Nat → Nat) (acc l : List Nat),
    (delLoop tx rows d acc).2 = .ok l →
    (∀ r ∈ rows, r < CAP ∧ (d r = NOT_DELETED ∨ d r = tx)) ∧
      ((delLoop tx rows d acc).1 = fun i => if i ∈ rows then tx else d i) ∧
      ∃ new, l = acc.reverse ++ new ∧ new.Nodup ∧ ∀ x, x ∈ new ↔ x ∈ rows ∧ d x = NOT_DELETED := by
  intro rows
  induction rows with
  | nil =>
    intro d acc l h
    simp only [delLoop, Res.ok.injEq] at h
    refine ⟨by simp, by simp [delLoop], [], by simp [h], by simp, by simp⟩
  | cons r rs ih =>
    intro d acc l h
    unfold delLoop at h ⊢
    by_cases h1 : CAP ≤ r
    · rw [if_pos h1] at h; cases h
    · rw [if_neg h1] at h ⊢
      by_cases h2 : d r = tx
      · rw [if_pos h2] at h ⊢
        obtain ⟨h3, h4, new, h5, h6, h7⟩ := ih d acc l h
        refine ⟨?_, ?_, new, h5, h6, ?_⟩
        · intro x hx
          rw [List.mem_cons] at hx
          rcases hx with rfl | hx
          · exact ⟨by omega, .inr h2⟩
          · exact h3 x hx
        · rw [h4]
          funext i
          by_cases hi : i = r
          · subst hi; simp [h2]
          · simp [hi]
        · intro x
          rw [h7, List.mem_cons]
          constructor
          · rintro ⟨a, b⟩; exact ⟨.inr a, b⟩
          · rintro ⟨rfl | a, b⟩
            · rw [h2] at b; exact (htx b).elim
            · exact ⟨a, b⟩
      · rw [if_neg h2] at h ⊢
        by_cases h3 : d r ≠ NOT_DELETED
        · rw [if_pos h3] at h; cases h
        · rw [if_neg h3] at h ⊢
          have h3' : d r = NOT_DELETED := by by_contra h; exact h3 h
          obtain ⟨h4, h5, new, h6, h7, h8⟩ := ih _ _ l h
          refine ⟨?_, ?_, r :: new, by simp [h6], ?_, ?_⟩
          · intro x hx
            rw [List.mem_cons] at hx
            rcases hx with rfl | hx
            · exact ⟨by omega, .inl h3'⟩
            · have := h4 x hx
              by_cases hxr : x = r
              · subst hxr; exact ⟨this.1, .inl h3'⟩
              · simpa [hxr] using this
          · rw [h5]
            funext i
            by_cases hi : i = r
            · subst hi; simp
            · simp [hi]
          · rw [List.nodup_cons]
            refine ⟨?_, h7⟩
            intro hr
            have := ((h8 r).mp hr).2
            simp at this
            exact htx this
          · intro x
            rw [List.mem_cons, h8, List.mem_cons]
            by_cases hxr : x = r
            · subst hxr; simp [h3']
            · simp [hxr]

theorem delLoop_runs {tx : Nat} (htx : tx ≠ NOT_DELETED) : ∀ (rows : List Nat) (d : Nat → Nat) (acc : List Nat),
    (∀ r ∈ rows, r < CAP) → (∀ r ∈ rows, d r = NOT_DELETED ∨ d r = tx) → ∃ l, (delLoop tx rows d acc).2 = .ok l := by
  intro rows
  induction rows with
  | nil => intro d acc _ _; exact ⟨_, rfl⟩
  | cons r rs ih =>
    intro d acc h1 h2
    unfold delLoop
    have hr := h1 r (by simp)
    rw [if_neg (by omega)]
    have hrs : ∀ x ∈ rs, x < CAP := fun x hx => h1 x (by simp [hx])
    by_cases h3 : d r = tx
    · rw [if_pos h3]
      exact ih d acc hrs (fun x hx => h2 x (by simp [hx]))
    · rw [if_neg h3]
      have h4 := (h2 r (by simp)).resolve_right h3
      rw [if_neg (by simpa using h4)]
      apply ih _ _ hrs
      intro x hx
      by_cases hxr : x = r
      · simp [hxr]
      · simpa [hxr] using h2 x (by simp [hx])

theorem delLoop_outcome {tx : Nat} : ∀ (rows : List Nat) (d : Nat → Nat) (acc : List Nat), (∀ r ∈ rows, r < CAP) →
    (∃ l, (delLoop tx rows d acc).2 = .ok l) ∨ (delLoop tx rows d acc).2 = .throws := by
  intro rows
  induction rows with
  | nil => intro d acc _; exact .inl ⟨_, rfl⟩
  | cons r rs ih =>
    intro d acc h1
    unfold delLoop
    have hr := h1 r (by simp)
    rw [if_neg (by omega)]
    have hrs : ∀ x ∈ rs, x < CAP := fun x hx => h1 x (by simp [hx])
    split
    · exact ih _ _ hrs
    · split
      · exact .inr rfl
      · exact ih _ _ hrs

theorem Stamps.deleted {vers : Option Mgr} {d : Nat → Nat} (h : Stamps vers d) :
    (toVec ((vers.getD []).chunk 0)).deleted = d ∧ (toVec ((vers.getD []).chunk 0)).same = true ∧
      (toVec ((vers.getD []).chunk 0)).insertId = 0 := by
  unfold Stamps at h
  cases vers with
  | none => simp only at h; subst h; exact ⟨rfl, rfl, rfl⟩
  | some m =>
    simp only [Option.getD_some] at h ⊢
    cases hc : m.chunk 0 with
    | none => rw [hc] at h; simp only at h; subst h; exact ⟨rfl, rfl, rfl⟩
    | some c =>
      rw [hc] at h
      cases c with
      | const _ _ => exact h.elim
      | vec v => exact ⟨h.2.2.2, h.1, h.2.1⟩

/-- A flush that returns: the rows were live and are now deleted. -/
theorem VersOk.flush {g g' : RowGroup α} {n k : Nat} {dead : Nat → Bool} (h : VersOk g.vers g.version n dead) (hn : n ≤ CAP)
    {rows : List Nat} (hne : rows ≠ []) (hr : ∀ r ∈ rows, r < n) (hf : g.flush 0 rows = .ok (g', k)) :
    (∀ r ∈ rows, dead r = false) ∧ g' = { g with vers := g'.vers, version := g'.version } ∧
      VersOk g'.vers g'.version n (fun i => dead i || decide (i ∈ rows)) ∧
      ∃ new : List Nat, new.Nodup ∧ (∀ x, x ∈ new ↔ x ∈ rows) ∧ k = new.length := by
  obtain ⟨d, h1, h2, h3, h4⟩ := h
  have hle := stamped_le d n
  have htx : g.version + 1 ≠ NOT_DELETED := by
    have := not_small (v := g.version) (by omega)
    have h5 : CAP + 1 < NOT_DELETED := by unfold CAP NOT_DELETED; omega
    omega
  unfold RowGroup.flush at hf
  split at hf
  · cases hf
  · simp only at hf
    rw [Res.map'_ok_iff] at hf
    obtain ⟨l, hl, he⟩ := hf
    unfold Mgr.deleteRows at hl he
    obtain ⟨hd1, hd2, hd3⟩ := h1.deleted
    simp only [hd1] at hl he
    obtain ⟨h5, h6, new, h7, h8, h9⟩ := delLoop_ok htx rows d [] l hl
    have hND : ∀ r ∈ rows, d r = NOT_DELETED := by
      intro r hr'
      rcases (h5 r hr').2 with h | h
      · exact h
      · rcases h3 r with h' | h'
        · exact h'
        · omega
    have hdead : ∀ r ∈ rows, dead r = false := by
      intro r hr'
      have := (h2 r (hr r hr')).not
      simp only [hND r hr', ne_eq, not_true, not_false_eq_true, iff_true, Bool.not_eq_true] at this
      exact this
    simp only [Prod.mk.injEq] at he
    obtain ⟨he1, he2⟩ := he
    refine ⟨hdead, ?_, ?_, new, h8, ?_, ?_⟩
    · rw [← he1]
    · rw [← he1]
      simp only
      refine ⟨fun i => if i ∈ rows then g.version + 1 else d i, ?_, ?_, ?_, ?_⟩
      · unfold Stamps
        simp only
        rw [Mvcc.chunk_set _ _ _ _ (Mvcc.length_fill _ _)]
        simp only [if_true]
        exact ⟨hd2, hd3, trivial, by rw [h6]⟩
      · intro i hi
        by_cases hir : i ∈ rows
        · simp [hir, htx]
        · simp only [hir, decide_false, Bool.or_false, if_false]
          exact h2 i hi
      · intro i
        by_cases hir : i ∈ rows
        · right; simp only [hir, if_true]; exact ⟨by omega, hr i hir⟩
        · simp only [hir, if_false]
          rcases h3 i with h | h
          · exact .inl h
          · exact .inr ⟨by omega, h.2⟩
      · obtain ⟨r, hr0⟩ := List.exists_mem_of_ne_nil rows hne
        have : stamped d n < stamped (fun i => if i ∈ rows then g.version + 1 else d i) n := by
          unfold stamped
          rw [← List.countP_eq_length_filter, ← List.countP_eq_length_filter]
          have hrn := List.mem_range.mpr (hr r hr0)
          have hsplit : ∀ p q : Nat → Bool, (∀ x, p x = true → q x = true) → p r = false → q r = true →
              (List.range n).countP p < (List.range n).countP q := by
            intro p q hpq hp hq
            generalize List.range n = L at hrn
            induction L with
            | nil => simp at hrn
            | cons y L ih =>
              rw [List.countP_cons, List.countP_cons]
              have hmono : L.countP p ≤ L.countP q := List.countP_mono_left fun x _ => hpq x
              by_cases hyr : y = r
              · subst hyr; simp [hp, hq]; omega
              · have hm : r ∈ L := (List.mem_cons.mp hrn).resolve_left fun e => hyr e.symm
                have := ih hm
                by_cases hpy : p y = true
                · simp [hpy, hpq y hpy]; exact this
                · simp [hpy]
                  split <;> omega
          apply hsplit
          · intro x hx
            simp only [ne_eq, decide_eq_true_eq] at hx ⊢
            split
            · exact htx
            · exact hx
          · simp [hND r hr0]
          · simp [hr0, htx]
        omega
    · intro x
      rw [h9]
      exact ⟨fun h => h.1, fun h => ⟨h, hND x h⟩⟩
    · rw [← he2, h7]; simp

theorem VersOk.flush_runs {g : RowGroup α} {n : Nat} {dead : Nat → Bool} (h : VersOk g.vers g.version n dead) (hn : n ≤ CAP)
    {rows : List Nat} (hnd : rows.Nodup) (hr : ∀ r ∈ rows, r < n) :
    ((∀ r ∈ rows, dead r = false) → ∃ r, g.flush 0 rows = .ok r) ∧ ((∃ r, g.flush 0 rows = .ok r) ∨ g.flush 0 rows = .throws) := by
  obtain ⟨d, h1, h2, h3, h4⟩ := h
  have hle := stamped_le d n
  have htx : g.version + 1 ≠ NOT_DELETED := by
    have h5 : CAP + 1 < NOT_DELETED := by unfold CAP NOT_DELETED; omega
    omega
  have hlen : rows.length ≤ CAP := by
    have : rows.length ≤ (List.range n).length := List.Nodup.length_le_of_subset hnd (fun x hx => List.mem_range.mpr (hr x hx))
    simp at this; omega
  unfold RowGroup.flush
  rw [if_neg (by omega)]
  simp only
  unfold Mgr.deleteRows
  obtain ⟨hd1, hd2, hd3⟩ := h1.deleted
  simp only [hd1]
  have hcap : ∀ r ∈ rows, r < CAP := fun r hr' => by have := hr r hr'; omega
  constructor
  · intro hlive
    obtain ⟨l, hl⟩ := delLoop_runs htx rows d [] hcap (by
      intro r hr'
      left
      by_contra hne
      have := (h2 r (hr r hr')).mpr hne
      rw [hlive r hr'] at this
      simp at this)
    rw [hl]
    exact ⟨_, rfl⟩
  · rcases delLoop_outcome (tx := g.version + 1) rows d [] hcap with ⟨l, hl⟩ | hl
    · rw [hl]; exact .inl ⟨_, rfl⟩
    · rw [hl]; exact .inr rfl

end Verif.Table
