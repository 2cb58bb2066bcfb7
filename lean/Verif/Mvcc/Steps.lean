import Verif.Mvcc.Lemmas
namespace Verif.Mvcc
open Verif

/-! ### arithmetic of vector ranges -/

theorem vstart_le {s j p : Nat} (hj : s / CAP ≤ j) : vstart s j ≤ p ↔ s ≤ j * CAP + p := by
  unfold vstart CAP at *
  split <;> omega

theorem lt_vstop {e j p : Nat} (he : 0 < e) (hj : j ≤ (e - 1) / CAP) (hp : p < CAP) :
    p < vstop e j ↔ j * CAP + p < e := by
  unfold vstop CAP at *
  split <;> omega

theorem vstop_eq {e j : Nat} (he : 0 < e) (hj : j ≤ (e - 1) / CAP) : vstop e j = CAP ↔ (j + 1) * CAP ≤ e := by
  unfold vstop CAP at *
  split <;> omega

theorem touched {s e j : Nat} (hse : s < e) (h1 : s / CAP ≤ j) (h2 : j ≤ (e - 1) / CAP) :
    ∃ p, p < CAP ∧ s ≤ j * CAP + p ∧ j * CAP + p < e := by
  refine ⟨s - j * CAP, ?_, ?_, ?_⟩ <;> unfold CAP at * <;> omega

/-! ### expanding to arrays -/

theorem VecInv.toVec {t : Txn} {a : Table} {i : Nat} {c : Option Info} (hc : ChunkInv t a i c) :
    VecInv t a i (toVec c) := by
  cases c with
  | none =>
    intro p hp
    refine ⟨fun row hr => ?_, fun _ => rfl, fun _ => rfl⟩
    obtain ⟨h1, h2⟩ := hc p row hp hr
    refine ⟨Or.inr ⟨rfl, h2⟩, ?_, fun _ => rfl⟩
    rw [h1]; rfl
  | some c =>
    cases c with
    | const ins del =>
      intro p hp
      refine ⟨fun row hr => ?_, fun _ => rfl, fun _ => rfl⟩
      obtain ⟨h1, h2⟩ := hc.2.2 p row hp hr
      refine ⟨Or.inl h1.symm, ?_, fun _ => rfl⟩
      rw [h2]; rfl
    | vec v => exact hc

/-! ### append -/

theorem append_get {a : Table} {k r : Nat} {new : Row} :
    (a ++ List.replicate k new)[r]? = if r < a.length then a[r]? else if r < a.length + k then some new else none := by
  rcases Nat.lt_or_ge r a.length with h | h
  · rw [if_pos h, List.getElem?_append_left h]
  · rw [if_neg (by omega), List.getElem?_append_right h, List.getElem?_replicate]
    by_cases h2 : r < a.length + k
    · rw [if_pos h2, if_pos (by omega)]
    · rw [if_neg h2, if_neg (by omega)]

theorem VecInv.append {t : Txn} {a : Table} {i e tx : Nat} {v : Vec} (hv : VecInv t a i v) (he : a.length < e)
    (h1 : a.length / CAP ≤ i) (h2 : i ≤ (e - 1) / CAP) :
    VecInv t (a ++ List.replicate (e - a.length) ⟨.pending tx, none⟩) i
      (v.append (vstart a.length i) (vstop e i) tx) := by
  intro p hp
  have hv := hv p hp
  have hs := vstart_le (p := p) h1
  have hst := lt_vstop (by omega) h2 hp
  have hlen : a.length + (e - a.length) = e := by omega
  rw [append_get, hlen]
  rcases Nat.lt_or_ge (i * CAP + p) a.length with hr | hr
  · -- an old row: the new rows start behind it in the same vector
    rw [if_pos hr]
    have hns : ¬ vstart a.length i ≤ p := by rw [hs]; omega
    have hs0 : vstart a.length i ≠ 0 := by omega
    refine ⟨fun row hrow => ?_, fun hrow => ?_, fun hd => ?_⟩
    · obtain ⟨x1, x2, x3⟩ := hv.1 row hrow
      unfold Vec.append
      simp only [if_neg hs0]
      by_cases hid : v.insertId = tx
      · simp only [hid, ne_eq, not_true_eq_false, if_false, hns, false_and]
        exact ⟨x1, x2, by rw [← hid]; exact x3⟩
      · simp only [hid, ne_eq, not_false_eq_true, if_true, hns, false_and, if_false]
        exact ⟨x1, x2, by simp⟩
    · rw [List.getElem?_eq_none_iff] at hrow; omega
    · unfold Vec.append at hd ⊢
      simp only [if_neg hs0] at hd ⊢
      by_cases hid : v.insertId = tx
      · simp only [hid, ne_eq, not_true_eq_false, if_false] at hd ⊢; exact hv.2.2 hd
      · simp only [hid, ne_eq, not_false_eq_true, if_true] at hd ⊢; exact hv.2.2 hd
  · rw [if_neg (by omega)]
    have hold : a[i * CAP + p]? = none := List.getElem?_eq_none_iff.mpr hr
    have hdel : ∀ w : Vec, w.deleted = v.deleted → w.deleted p = NOT_DELETED := by
      intro w hw; rw [hw]; exact hv.2.1 hold
    have hdeleq : (v.append (vstart a.length i) (vstop e i) tx).deleted = v.deleted := by
      unfold Vec.append
      by_cases h0 : vstart a.length i = 0
      · simp only [h0, if_true]
      · by_cases hid : v.insertId = tx
        · simp only [h0, if_false, hid, ne_eq, not_true_eq_false]
        · simp only [h0, if_false, hid, ne_eq, not_false_eq_true, if_true]
    refine ⟨fun row hrow => ?_, fun _ => hdel _ hdeleq, fun _ => hdel _ hdeleq⟩
    by_cases hre : i * CAP + p < e
    · rw [if_pos hre] at hrow
      cases hrow
      have hin : vstart a.length i ≤ p ∧ p < vstop e i := ⟨hs.mpr hr, hst.mpr hre⟩
      refine ⟨Or.inl ?_, hdel _ hdeleq, ?_⟩
      · unfold Vec.append; simp only [hin, and_self, if_true]; rfl
      · unfold Vec.append
        by_cases h0 : vstart a.length i = 0
        · simp only [h0, if_true]; intro _
          rw [if_pos ⟨Nat.zero_le _, hin.2⟩]
        · by_cases hid : v.insertId = tx
          · simp only [h0, if_false, hid, ne_eq, not_true_eq_false, hin, and_self, if_true]; intro _; trivial
          · simp only [h0, if_false, hid, ne_eq, not_false_eq_true, if_true]; intro h; cases h
    · rw [if_neg hre] at hrow; cases hrow

theorem append_step {t : Txn} {m : Mgr} {a : Table} (h : Inv t m a) {tx e : Nat} (htx : TXN_START ≤ tx)
    (htx' : tx < NOT_DELETED) (he : a.length < e) :
    ∃ m', m.append tx a.length e = .ok m' ∧
      Inv t m' (a ++ List.replicate (e - a.length) ⟨.pending tx, none⟩) := by
  unfold Mgr.append
  rw [if_neg (by omega)]
  have hk : a.length / CAP + ((e - 1) / CAP + 1 - a.length / CAP) = (e - 1) / CAP + 1 := by unfold CAP; omega
  obtain ⟨m', h1, h2⟩ := forChunks_ok false (appendChunk tx a.length e)
    (fun i c => if vstart a.length i = 0 ∧ vstop e i = CAP then some (.const tx NOT_DELETED)
      else some (.vec ((toVec c).append (vstart a.length i) (vstop e i) tx)))
    ((e - 1) / CAP + 1 - a.length / CAP) (a.length / CAP) (m.fill ((e - 1) / CAP))
    (by intro _; rw [hk]; exact length_fill _ _) (by simp) (by
      intro j hj hj'
      unfold appendChunk
      split
      · next hfull => simp only [hfull, and_self, if_true]
      · next hfull =>
        rw [chunk_fill]
        cases hc : m.chunk j with
        | none => rfl
        | some c =>
          cases c with
          | vec v => rfl
          | const ins del =>
            exfalso
            have hinv := h.chunks j
            rw [hc] at hinv
            have hne := hinv.2.1
            rw [ne_eq, List.getElem?_eq_none_iff] at hne
            unfold CAP at *
            omega)
  refine ⟨m', h1, ?_, ?_, ?_⟩
  · intro r row hr
    rw [append_get] at hr
    split at hr
    · exact h.wf r row hr
    · split at hr
      · cases hr
        exact ⟨⟨htx, htx'⟩, by intro d hd; cases hd⟩
      · cases hr
  · intro i hi
    simp only [List.length_append, List.length_replicate] at hi
    rw [h2, if_neg (by unfold CAP at *; omega), chunk_fill]
    exact h.tail i (by omega)
  · intro i
    rw [h2, hk]
    by_cases hi : a.length / CAP ≤ i ∧ i < (e - 1) / CAP + 1
    · rw [if_pos hi]
      split
      · next hfull =>
        have hs : a.length ≤ i * CAP := by
          have := (vstart_le (p := 0) hi.1).mp (by omega); omega
        have hst := (vstop_eq (e := e) (by omega) (by omega)).mp hfull.2
        have hget : ∀ p, p < CAP → (a ++ List.replicate (e - a.length) (⟨.pending tx, none⟩ : Row))[i * CAP + p]?
            = some ⟨.pending tx, none⟩ := by
          intro p hp
          rw [append_get, if_neg (by omega), if_pos (by unfold CAP at *; omega)]
        refine ⟨rfl, ?_, ?_⟩
        · rw [hget _ (by decide)]; simp
        · intro p row hp hr
          rw [hget p hp] at hr
          cases hr
          exact ⟨rfl, rfl⟩
      · rw [chunk_fill]
        exact VecInv.append (VecInv.toVec (h.chunks i)) he hi.1 (by omega)
    · rw [if_neg hi, chunk_fill]
      refine ChunkInv.congr ?_ (h.chunks i)
      intro p hp
      rw [append_get]
      by_cases hlt : i * CAP + p < a.length
      · rw [if_pos hlt]
      · rw [if_neg hlt, if_neg (by unfold CAP at *; omega)]
        exact (List.getElem?_eq_none_iff.mpr (by omega)).symm

/-! ### commit of appended rows -/

theorem mapIdx_get {a : Table} {f : Nat → Row → Row} {r : Nat} : (a.mapIdx f)[r]? = (a[r]?).map (f r) := by
  simp [List.getElem?_mapIdx]

theorem commitAppend_step {t : Txn} (hts : t.start ≤ TXN_START) {m : Mgr} {a : Table} (h : Inv t m a)
    {c s count : Nat} (hl : Legal t a (.commitAppend c s count)) :
    ∃ m', m.commitAppend c s count = .ok m' ∧
      Inv t m' (a.step (.commitAppend c s count)).1 := by
  obtain ⟨hc, hlen, tx, hrows, hcover⟩ := hl
  unfold Mgr.commitAppend
  by_cases h0 : count = 0
  · subst h0
    refine ⟨m, by simp, ?_⟩
    have : (a.step (.commitAppend c s 0)).1 = a := by
      apply List.ext_getElem?
      intro r
      simp only [Table.step, mapIdx_get]
      cases a[r]? with
      | none => rfl
      | some row => simp only [Option.map_some]; rw [if_neg (by omega)]
    rw [this]
    exact h
  rw [if_neg h0]
  -- rows of the transaction carry exact stamps
  have htxge : TXN_START ≤ tx := by
    have hr : a[s]? = some (a[s]'(by omega)) := List.getElem?_eq_getElem (by omega)
    have hp := hrows s _ hr (by omega) (by omega)
    have hok := (h.wf s _ hr).1
    rw [hp] at hok
    exact hok.1
  have hmem : ∀ j, s / CAP ≤ j → j ≤ (s + count - 1) / CAP → ∃ p row, p < CAP ∧ a[j * CAP + p]? = some row ∧
      row.ins = .pending tx := by
    intro j h1 h2
    obtain ⟨p, hp, hp1, hp2⟩ := touched (by omega) h1 h2
    have hr : a[j * CAP + p]? = some (a[j * CAP + p]'(by omega)) := List.getElem?_eq_getElem (by omega)
    exact ⟨p, _, hp, hr, hrows _ _ hr hp1 hp2⟩
  have hall : ∀ j, s / CAP ≤ j → j ≤ (s + count - 1) / CAP →
      ∀ p row, p < CAP → a[j * CAP + p]? = some row → row.ins = .pending tx →
        vstart s j ≤ p ∧ p < vstop (s + count) j := by
    intro j h1 h2 p row hp hr hpend
    have hdiv : (j * CAP + p) / CAP = j := by unfold CAP at *; omega
    have := hcover _ row hr hpend (by rw [hdiv]; exact h1) (by rw [hdiv]; exact h2)
    exact ⟨(vstart_le h1).mpr this.1, (lt_vstop (by omega) h2 hp).mpr this.2⟩
  have hin : ∀ j, s / CAP ≤ j → j ≤ (s + count - 1) / CAP → ∀ p, p < CAP →
      ((vstart s j ≤ p ∧ p < vstop (s + count) j) ↔ (s ≤ j * CAP + p ∧ j * CAP + p < s + count)) := by
    intro j h1 h2 p hp
    rw [vstart_le h1, lt_vstop (by omega) h2 hp]
  have hconst : ∀ j ins del, s / CAP ≤ j → j ≤ (s + count - 1) / CAP → m.chunk j = some (.const ins del) →
      vstart s j = 0 ∧ vstop (s + count) j = CAP := by
    intro j ins del h1 h2 hch
    have hci := h.chunks j
    rw [hch] at hci
    obtain ⟨_, hlast, hrow⟩ := hci
    obtain ⟨p, row, hp, hr, hpend⟩ := hmem j h1 h2
    have hins : ins = tx := by
      have := (hrow p row hp hr).1
      rw [hpend] at this
      exact this.symm
    have hfull : ∀ q, q < CAP → vstart s j ≤ q ∧ q < vstop (s + count) j := by
      intro q hq
      have hlt : j * CAP + (CAP - 1) < a.length := by
        rcases Nat.lt_or_ge (j * CAP + (CAP - 1)) a.length with hx | hx
        · exact hx
        · exact absurd (List.getElem?_eq_none_iff.mpr hx) hlast
      have hqr : a[j * CAP + q]? = some (a[j * CAP + q]'(by omega)) := List.getElem?_eq_getElem (by omega)
      have he := (hrow q _ hq hqr).1
      rw [hins] at he
      have hpq := (enc_eq_pending (h.wf _ _ hqr).1 htxge).mp he
      exact hall j h1 h2 q _ hq hqr hpq
    have f0 := hfull 0 (by decide)
    have f1 := hfull (CAP - 1) (by decide)
    refine ⟨by omega, ?_⟩
    have : vstop (s + count) j ≤ CAP := by unfold vstop; unfold CAP at *; split <;> omega
    have : 0 < CAP := by decide
    omega
  have hnone : ∀ j, s / CAP ≤ j → j ≤ (s + count - 1) / CAP → m.chunk j ≠ none := by
    intro j h1 h2 hch
    have hci := h.chunks j
    rw [hch] at hci
    obtain ⟨p, row, hp, hr, hpend⟩ := hmem j h1 h2
    obtain ⟨_, c', hc', _⟩ := hci p row hp hr
    rw [hpend] at hc'
    cases hc'
  have hk : s / CAP + ((s + count - 1) / CAP + 1 - s / CAP) = (s + count - 1) / CAP + 1 := by unfold CAP; omega
  have hmlen : (s + count - 1) / CAP < m.length := by
    rcases Nat.lt_or_ge ((s + count - 1) / CAP) m.length with hx | hx
    · exact hx
    · exfalso
      apply hnone ((s + count - 1) / CAP) (by unfold CAP; omega) (Nat.le_refl _)
      unfold Mgr.chunk
      rw [List.getElem?_eq_none hx]; rfl
  obtain ⟨m', hm1, hm2⟩ := forChunks_ok false (commitChunk c s (s + count))
    (fun i ch => match ch with
      | none => none
      | some (.const _ del) => some (.const c del)
      | some (.vec v) => some (.vec { v with
          insertId := if v.same then c else v.insertId
          inserted := fun p => if vstart s i ≤ p ∧ p < vstop (s + count) i then c else v.inserted p }))
    ((s + count - 1) / CAP + 1 - s / CAP) (s / CAP) m
    (by intro _; rw [hk]; omega) (by simp) (by
      intro j hj hj'
      unfold commitChunk
      cases hch : m.chunk j with
      | none => exact absurd hch (hnone j hj (by omega))
      | some ci =>
        cases ci with
        | const ins del =>
          simp only [Info.commitAppend]
          rw [if_pos (hconst j ins del hj (by omega) hch)]
        | vec v => simp only [Info.commitAppend])
  have hget : ∀ r, (a.step (.commitAppend c s count)).1[r]?
      = (a[r]?).map (fun row => if s ≤ r ∧ r < s + count then { row with ins := .at c } else row) := by
    intro r
    simp only [Table.step, mapIdx_get]
  refine ⟨m', hm1, ?_, ?_, ?_⟩
  · intro r row hr
    rw [hget] at hr
    cases hold : a[r]? with
    | none => rw [hold] at hr; cases hr
    | some row0 =>
      rw [hold] at hr
      simp only [Option.map_some, Option.some.injEq] at hr
      subst hr
      have := h.wf r row0 hold
      split
      · exact ⟨hc, this.2⟩
      · exact this
  · intro i hi
    have : (a.step (.commitAppend c s count)).1.length = a.length := by simp [Table.step]
    rw [this] at hi
    rw [hm2, if_neg (by unfold CAP at *; omega)]
    exact h.tail i hi
  · intro i
    rw [hm2, hk]
    by_cases hi : s / CAP ≤ i ∧ i < (s + count - 1) / CAP + 1
    · rw [if_pos hi]
      have hi2 : i ≤ (s + count - 1) / CAP := by omega
      have hci := h.chunks i
      cases hch : m.chunk i with
      | none => exact absurd hch (hnone i hi.1 hi2)
      | some ci =>
        rw [hch] at hci
        cases ci with
        | const ins del =>
          simp only
          obtain ⟨hd, hlast, hrow⟩ := hci
          have hfull := hconst i ins del hi.1 hi2 hch
          refine ⟨hd, ?_, ?_⟩
          · rw [hget]; simpa using hlast
          · intro p row hp hr
            rw [hget] at hr
            cases hold : a[i * CAP + p]? with
            | none => rw [hold] at hr; cases hr
            | some row0 =>
              rw [hold] at hr
              simp only [Option.map_some, Option.some.injEq] at hr
              have hrange := (hin i hi.1 hi2 p hp).mp (by omega)
              rw [if_pos hrange] at hr
              subst hr
              exact ⟨rfl, (hrow p row0 hp hold).2⟩
        | vec v =>
          simp only
          intro p hp
          have hv := hci p hp
          refine ⟨fun row hr => ?_, fun hr => ?_, hv.2.2⟩
          · rw [hget] at hr
            cases hold : a[i * CAP + p]? with
            | none => rw [hold] at hr; cases hr
            | some row0 =>
              rw [hold] at hr
              simp only [Option.map_some, Option.some.injEq] at hr
              obtain ⟨x1, x2, x3⟩ := hv.1 row0 hold
              by_cases hrange : s ≤ i * CAP + p ∧ i * CAP + p < s + count
              · rw [if_pos hrange] at hr
                subst hr
                have hx := (hin i hi.1 hi2 p hp).mpr hrange
                simp only
                refine ⟨Or.inl ?_, x2, ?_⟩
                · rw [if_pos hx]; rfl
                · intro hs; rw [if_pos hx, if_pos hs]
              · rw [if_neg hrange] at hr
                subst hr
                have hx : ¬ (vstart s i ≤ p ∧ p < vstop (s + count) i) := by
                  rw [hin i hi.1 hi2 p hp]; exact hrange
                simp only
                refine ⟨by rw [if_neg hx]; exact x1, x2, ?_⟩
                intro hs
                -- with a single insert id the row would belong to the same transaction
                exfalso
                obtain ⟨q, rowq, hq, hrq, hpend⟩ := hmem i hi.1 hi2
                obtain ⟨y1, _, y3⟩ := (hci q hq).1 rowq hrq
                have hqtx : v.inserted q = tx := by
                  rcases y1 with y1 | ⟨_, c', hc', _⟩
                  · rw [hpend] at y1; exact y1
                  · rw [hpend] at hc'; cases hc'
                have hid : v.insertId = tx := by rw [← y3 hs]; exact hqtx
                have hp1 : v.inserted p = tx := by rw [x3 hs]; exact hid
                have hpend0 : row0.ins = .pending tx := by
                  rcases x1 with x1 | ⟨x1, _⟩
                  · exact (enc_eq_pending (h.wf _ _ hold).1 htxge).mp (by rw [← x1]; exact hp1)
                  · have : 0 < TXN_START := by decide
                    omega
                exact hrange ((hin i hi.1 hi2 p hp).mp (hall i hi.1 hi2 p row0 hp hold hpend0))
          · rw [hget] at hr
            cases hold : a[i * CAP + p]? with
            | none => exact hv.2.1 hold
            | some row0 => rw [hold] at hr; cases hr
    · rw [if_neg hi]
      refine ChunkInv.congr ?_ (h.chunks i)
      intro p hp
      rw [hget]
      cases hold : a[i * CAP + p]? with
      | none => rfl
      | some row0 =>
        simp only [Option.map_some]
        rw [if_neg (by unfold CAP at *; omega)]

end Verif.Mvcc
