import Verif.Mvcc.Steps
namespace Verif.Mvcc
open Verif

/-! ### deletion -/

/-- How the outcomes correspond. -/
def resOut : Res (List Nat) → Out
  | .ok l => .deleted l
  | .throws => .conflict
  | .ub => .failed
  | .diverges => .failed

theorem del_sim (tx base : Nat) (h1 : TXN_START ≤ tx) (h2 : tx < NOT_DELETED) :
    ∀ (rows : List Nat) (a : Table) (d : Nat → Nat) (acc : List Nat),
      (∀ p, p ∈ rows → p < CAP ∧ base + p < a.length) → WF a →
      (∀ p row, p < CAP → a[base + p]? = some row → d p = encD row.del) →
      (∀ p, p < CAP → a[base + p]? = none → d p = NOT_DELETED) →
      let A := Table.delete tx base rows a acc
      let D := delLoop tx rows d acc
      A.2 = resOut D.2 ∧ A.1.length = a.length ∧ WF A.1 ∧
      (∀ r : Nat, (A.1[r]?).map Row.ins = (a[r]?).map Row.ins) ∧
      (∀ r : Nat, (¬ ∃ p, p < CAP ∧ r = base + p) → A.1[r]? = a[r]?) ∧
      (∀ p row, p < CAP → A.1[base + p]? = some row → D.1 p = encD row.del) ∧
      (∀ p, p < CAP → A.1[base + p]? = none → D.1 p = NOT_DELETED) := by
  intro rows
  induction rows with
  | nil =>
    intro a d acc _ hwf hd hn
    exact ⟨rfl, rfl, hwf, fun _ => rfl, fun _ _ => rfl, hd, hn⟩
  | cons p ps ih =>
    intro a d acc hp hwf hd hn
    obtain ⟨hpc, hpl⟩ := hp p (List.mem_cons_self ..)
    have hget : a[base + p]? = some (a[base + p]'hpl) := List.getElem?_eq_getElem hpl
    have hps : ∀ q, q ∈ ps → q < CAP ∧ base + q < a.length := fun q hq => hp q (List.mem_cons_of_mem _ hq)
    generalize hrow : a[base + p]'hpl = row at hget
    have hdp := hd p row hpc hget
    have hok := (hwf _ row hget).2
    simp only [Table.delete, delLoop, hget, if_neg (Nat.not_le.mpr hpc)]
    cases hdel : row.del with
    | none =>
      have hnd : d p = NOT_DELETED := by rw [hdp, hdel]; rfl
      rw [if_neg (by omega), if_neg (by omega)]
      simp only
      have hset : ∀ r, (a.set (base + p) { row with del := some (.pending tx) })[r]?
          = if r = base + p then some { row with del := some (.pending tx) } else a[r]? := by
        intro r
        by_cases hr : r = base + p
        · subst hr; rw [if_pos rfl, List.getElem?_set_self hpl]
        · rw [if_neg hr, List.getElem?_set_ne (by omega)]
      have := ih (a.set (base + p) { row with del := some (.pending tx) }) (fun i => if i = p then tx else d i) (p :: acc)
        (by intro q hq; rw [List.length_set]; exact hps q hq)
        (by
          intro r row' hr
          rw [hset] at hr
          split at hr
          · cases hr
            refine ⟨(hwf _ row hget).1, ?_⟩
            intro dd hdd; cases hdd; exact ⟨h1, h2⟩
          · exact hwf r row' hr)
        (by
          intro q row' hq hr
          rw [hset] at hr
          split at hr
          · next he => cases hr; rw [if_pos (by omega)]; rfl
          · next he => rw [if_neg (by omega)]; exact hd q row' hq hr)
        (by
          intro q hq hr
          rw [hset] at hr
          split at hr
          · cases hr
          · next he => rw [if_neg (by omega)]; exact hn q hq hr)
      obtain ⟨r1, r2, r3, r4, r5, r6, r7⟩ := this
      refine ⟨r1, by rw [r2, List.length_set], r3, ?_, ?_, r6, r7⟩
      · intro r
        rw [r4, hset]
        split
        · next he => subst he; rw [hget]; rfl
        · rfl
      · intro r hr
        rw [r5 r hr, hset, if_neg]
        intro he; exact hr ⟨p, hpc, he⟩
    | some s =>
      have hsok := hok s hdel
      simp only
      by_cases hs : s = .pending tx
      · subst hs
        rw [if_pos rfl, if_pos (by rw [hdp, hdel]; rfl)]
        exact ih a d acc hps hwf hd hn
      · have hne : d p ≠ tx := by
          rw [hdp, hdel]; intro he; exact hs ((enc_eq_pending hsok h1).mp he)
        have hne2 : d p ≠ NOT_DELETED := by
          rw [hdp, hdel]; have := enc_lt hsok; change s.enc ≠ _; omega
        rw [if_neg hs, if_neg hne, if_pos hne2]
        exact ⟨rfl, rfl, hwf, fun _ => rfl, fun _ _ => rfl, hd, hn⟩

theorem delete_step {t : Txn} {m : Mgr} {a : Table} (h : Inv t m a) {i tx : Nat} {rows : List Nat}
    (hl : Legal t a (.delete i tx rows)) :
    Inv t (m.step (.delete i tx rows)).1 (a.step (.delete i tx rows)).1 ∧
      (m.step (.delete i tx rows)).2 = (a.step (.delete i tx rows)).2 := by
  obtain ⟨h1, h2, hlt, hrows⟩ := hl
  have hv := VecInv.toVec (h.chunks i)
  obtain ⟨r1, r2, r3, r4, r5, r6, r7⟩ := del_sim tx (i * CAP) h1 h2 rows a (toVec (m.chunk i)).deleted [] hrows h.wf
    (fun p row hp hr => ((hv p hp).1 row hr).2.1) (fun p hp hr => (hv p hp).2.1 hr)
  refine ⟨⟨r3, ?_, ?_⟩, ?_⟩
  · intro j hj
    simp only [Table.step] at hj
    rw [r2] at hj
    simp only [Mgr.step, Mgr.deleteRows]
    rw [chunk_set _ _ _ _ (length_fill _ _), if_neg ?_, chunk_fill]
    · exact h.tail j hj
    · intro he; subst he; omega
  · intro j
    simp only [Mgr.step, Mgr.deleteRows, Table.step]
    rw [chunk_set _ _ _ _ (length_fill _ _)]
    split
    · next he =>
      subst he
      intro p hp
      refine ⟨?_, fun hr => r7 p hp hr, by intro hc; cases hc⟩
      intro row hr
      have h4 := r4 (j * CAP + p)
      rw [hr] at h4
      cases hold : a[j * CAP + p]? with
      | none => rw [hold] at h4; cases h4
      | some row0 =>
        rw [hold] at h4
        simp only [Option.map_some, Option.some.injEq] at h4
        obtain ⟨x1, _, x3⟩ := (hv p hp).1 row0 hold
        exact ⟨by rw [h4]; exact x1, r6 p row hp hr, x3⟩
    · next he =>
      rw [chunk_fill]
      refine ChunkInv.congr ?_ (h.chunks j)
      intro p hp
      apply r5
      rintro ⟨q, hq, hpq⟩
      unfold CAP at *
      omega
  · simp only [Mgr.step, Mgr.deleteRows, Table.step]
    rw [r1]
    cases (delLoop tx rows (toVec (m.chunk i)).deleted []).2 <;> rfl

/-! ### commit of deletions -/

theorem commitDelete_step {t : Txn} {m : Mgr} {a : Table} (h : Inv t m a) {i c : Nat} {info : DelInfo}
    (hl : Legal t a (.commitDelete i c info)) :
    ∃ m', m.commitDelete i c info = .ok m' ∧ Inv t m' (a.step (.commitDelete i c info)).1 := by
  obtain ⟨hc, hlt, tx, hrows⟩ := hl
  have hv := VecInv.toVec (h.chunks i)
  have hall : info.list.all (fun r => decide (r < CAP)) = true := by
    rw [List.all_eq_true]; intro p hp; exact decide_eq_true (hrows p hp).1
  have hget : ∀ r, (a.step (.commitDelete i c info)).1[r]? = (a[r]?).map (fun row =>
      if i * CAP ≤ r ∧ r - i * CAP ∈ info.list then { row with del := some (.at c) } else row) := by
    intro r; simp only [Table.step, mapIdx_get]
  refine ⟨_, by unfold Mgr.commitDelete; simp only; rw [if_pos hall], ?_, ?_, ?_⟩
  · intro r row hr
    rw [hget] at hr
    cases hold : a[r]? with
    | none => rw [hold] at hr; cases hr
    | some row0 =>
      rw [hold] at hr
      simp only [Option.map_some, Option.some.injEq] at hr
      have hwf := h.wf r row0 hold
      subst hr
      split
      · refine ⟨hwf.1, ?_⟩
        intro d hd; cases hd; exact hc
      · exact hwf
  · intro j hj
    have hlen : (a.step (.commitDelete i c info)).1.length = a.length := by simp [Table.step]
    rw [hlen] at hj
    rw [chunk_set _ _ _ _ (length_fill _ _), if_neg ?_, chunk_fill]
    · exact h.tail j hj
    · intro he; subst he; omega
  · intro j
    rw [chunk_set _ _ _ _ (length_fill _ _)]
    split
    · next he =>
      subst he
      intro p hp
      have hsub : j * CAP + p - j * CAP = p := by omega
      have hle : j * CAP ≤ j * CAP + p := by omega
      refine ⟨?_, ?_, ?_⟩
      · intro row hr
        rw [hget, hsub] at hr
        cases hold : a[j * CAP + p]? with
        | none => rw [hold] at hr; cases hr
        | some row0 =>
          rw [hold] at hr
          simp only [Option.map_some, Option.some.injEq, hle, true_and] at hr
          obtain ⟨x1, x2, x3⟩ := (hv p hp).1 row0 hold
          by_cases hmem : p ∈ info.list
          · rw [if_pos hmem] at hr
            subst hr
            refine ⟨x1, ?_, x3⟩
            simp only [if_pos hmem]; rfl
          · rw [if_neg hmem] at hr
            subst hr
            refine ⟨x1, ?_, x3⟩
            simp only [if_neg hmem]; exact x2
      · intro hr
        rw [hget] at hr
        cases hold : a[j * CAP + p]? with
        | some row0 => rw [hold] at hr; cases hr
        | none =>
          have hmem : p ∉ info.list := by
            intro hm
            obtain ⟨_, row, hr', _⟩ := hrows p hm
            rw [hold] at hr'; cases hr'
          simp only [if_neg hmem]
          exact (hv p hp).2.1 hold
      · intro hany
        simp only at hany
        by_cases hmem : p ∈ info.list
        · exfalso
          obtain ⟨_, row, hr', hd⟩ := hrows p hmem
          have x2 := ((hv p hp).1 row hr').2.1
          rw [(hv p hp).2.2 hany, hd] at x2
          have hok := (h.wf _ row hr').2 _ hd
          have := hok.2
          change NOT_DELETED = tx at x2
          omega
        · simp only [if_neg hmem]; exact (hv p hp).2.2 hany
    · next he =>
      rw [chunk_fill]
      refine ChunkInv.congr ?_ (h.chunks j)
      intro p hp
      rw [hget]
      cases hold : a[j * CAP + p]? with
      | none => rfl
      | some row0 =>
        simp only [Option.map_some]
        rw [if_neg]
        rintro ⟨hx, hmem⟩
        have := (hrows _ hmem).1
        unfold CAP at *
        omega

/-! ### clean-up -/

theorem ins_of_le {t : Txn} (hts : t.start ≤ TXN_START) {lowest : Nat} (hlo : lowest < t.start) {st : Stamp} (hok : st.ok)
    {x : Nat} (hx : x ≤ lowest) (h : x = st.enc ∨ (x = 0 ∧ ∃ c, st = .at c ∧ c < t.start)) :
    ∃ c, st = .at c ∧ c < t.start := by
  rcases h with h | ⟨_, h⟩
  · cases st with
    | pending tx => simp only [Stamp.ok, Stamp.enc] at *; omega
    | «at» c => exact ⟨c, rfl, by simp only [Stamp.enc] at h; omega⟩
  · exact h

theorem cleanup_step {t : Txn} (hts : t.start ≤ TXN_START) {m : Mgr} {a : Table} (h : Inv t m a) {lowest s count : Nat}
    (hl : Legal t a (.cleanup lowest s count)) :
    ∃ m', m.cleanupAppend lowest s count = .ok m' ∧ Inv t m' a := by
  obtain ⟨hlo, hlen, hrow0⟩ := hl
  unfold Mgr.cleanupAppend
  by_cases h0 : count = 0
  · exact ⟨m, by rw [if_pos h0], h⟩
  rw [if_neg h0]
  have hk : s / CAP + ((s + count - 1) / CAP + 1 - s / CAP) = (s + count - 1) / CAP + 1 := by unfold CAP; omega
  obtain ⟨m', hm1, hm2⟩ := forChunks_ok true (cleanupChunk lowest (s + count))
    (fun i c => if vstop (s + count) i ≠ CAP then c
      else match c with
        | none => none
        | some c => if c.cleanup lowest then none else some c)
    ((s + count - 1) / CAP + 1 - s / CAP) (s / CAP) m (by simp)
    (by intro _ j; simp) (by
      intro j _ _
      unfold cleanupChunk
      split
      · rfl
      · cases m.chunk j with
        | none => rfl
        | some c => simp only; split <;> rfl)
  refine ⟨m', hm1, h.wf, ?_, ?_⟩
  · intro i hi
    have hn := h.tail i hi
    rw [hm2, hn]
    split <;> simp
  · intro i
    rw [hm2, hk]
    by_cases hi : s / CAP ≤ i ∧ i < (s + count - 1) / CAP + 1
    · rw [if_pos hi]
      split
      · exact h.chunks i
      · have hci := h.chunks i
        cases hch : m.chunk i with
        | none => rw [hch] at hci; exact hci
        | some c =>
          rw [hch] at hci
          simp only
          by_cases hcl : c.cleanup lowest = true
          · rw [if_pos hcl]
            intro p row hp hr
            have hwf := h.wf _ row hr
            cases c with
            | const ins del =>
              obtain ⟨hd, _, hrows⟩ := hci
              obtain ⟨x1, x2⟩ := hrows p row hp hr
              refine ⟨x2, ?_⟩
              have hle : ins ≤ lowest := by
                simp only [Info.cleanup, hd, ne_eq, not_true_eq_false, if_false] at hcl
                split at hcl
                · cases hcl
                · omega
              exact ins_of_le hts hlo hwf.1 hle (Or.inl x1.symm)
            | vec v =>
              obtain ⟨hv1, hv2, hv3⟩ := hci p hp
              obtain ⟨x1, x2, x3⟩ := hv1 row hr
              simp only [Info.cleanup] at hcl
              have hany : v.anyDel = false := by
                cases hb : v.anyDel with
                | false => rfl
                | true => simp [hb] at hcl
              have hdel : row.del = none := by
                rw [hv3 hany] at x2
                exact (encD_eq_none hwf.2).mp x2.symm
              refine ⟨hdel, ?_⟩
              rw [hany] at hcl
              by_cases hs : v.same = true
              · simp only [hs, Bool.not_true, Bool.false_eq_true, if_false] at hcl
                split at hcl
                · cases hcl
                · exact ins_of_le hts hlo hwf.1 (x := v.inserted p) (by rw [x3 hs]; omega) x1
              · simp only [Bool.not_eq_true] at hs
                simp only [hs, Bool.not_false, if_true, Bool.false_eq_true, if_false, List.all_eq_true] at hcl
                have := hcl p (List.mem_range.mpr hp)
                by_cases hp0 : p = 0
                · subst hp0
                  obtain ⟨c, hc1, hc2⟩ := hrow0 i row hi.1 (by omega) (by rw [Nat.add_zero] at hr; exact hr)
                  exact ⟨c, hc1, by omega⟩
                · simp only [Bool.or_eq_true, decide_eq_true_eq, Bool.not_eq_true', decide_eq_false_iff_not] at this
                  exact ins_of_le hts hlo hwf.1 (x := v.inserted p) (by omega) x1
          · rw [if_neg hcl]; exact hci
    · rw [if_neg hi]; exact h.chunks i

/-! ### undoing an append -/

theorem chunk_revert (m : Mgr) (s i : Nat) :
    (m.revertAppend s).chunk i = if (s + (CAP - 1)) / CAP ≤ i then none else m.chunk i := by
  unfold Mgr.revertAppend Mgr.chunk
  rw [List.getElem?_mapIdx]
  cases m[i]? with
  | none => simp
  | some c => simp only [Option.map_some, Option.join_some]

theorem revert_step {t : Txn} {m : Mgr} {a : Table} (h : Inv t m a) {s : Nat} (hl : Legal t a (.revert s)) :
    Inv t (m.revertAppend s) (a.take s) := by
  obtain ⟨hs, tx, hrows⟩ := hl
  have hget : ∀ r, (a.take s)[r]? = if r < s then a[r]? else none := by
    intro r; rw [List.getElem?_take]
  refine ⟨?_, ?_, ?_⟩
  · intro r row hr
    rw [hget] at hr
    split at hr
    · exact h.wf r row hr
    · cases hr
  · intro i hi
    rw [List.length_take] at hi
    rw [chunk_revert, if_pos (by unfold CAP at *; omega)]
  · intro i
    rw [chunk_revert]
    split
    · next hle =>
      intro p row hp hr
      rw [hget, if_neg (by unfold CAP at *; omega)] at hr
      cases hr
    · next hle =>
      have hi : i * CAP < s := by unfold CAP at *; omega
      have hci := h.chunks i
      cases hch : m.chunk i with
      | none =>
        rw [hch] at hci
        intro p row hp hr
        rw [hget] at hr
        split at hr
        · exact hci p row hp hr
        · cases hr
      | some c =>
        rw [hch] at hci
        cases c with
        | const ins del =>
          obtain ⟨hd, hlast, hr0⟩ := hci
          have hlast' : i * CAP + (CAP - 1) < s := by
            rcases Nat.lt_or_ge (i * CAP + (CAP - 1)) s with hx | hx
            · exact hx
            · exfalso
              cases hl : a[i * CAP + (CAP - 1)]? with
              | none => exact hlast hl
              | some rl =>
                have hpend := ((hrows _ rl hl).1 hx).1
                have htx : TXN_START ≤ tx := by
                  have := (h.wf _ rl hl).1
                  rw [hpend] at this; exact this.1
                have hfirst : a[i * CAP + 0]? = some (a[i * CAP + 0]'(by omega)) := List.getElem?_eq_getElem (by omega)
                have he1 := (hr0 _ rl (by decide) hl).1
                have he0 := (hr0 0 _ (by decide) hfirst).1
                rw [hpend] at he1
                have : (a[i * CAP + 0]'(by omega)).ins = .pending tx :=
                  (enc_eq_pending (h.wf _ _ hfirst).1 htx).mp (by rw [he0, ← he1]; rfl)
                exact (hrows _ _ hfirst).2 (by omega) this
          refine ⟨hd, ?_, ?_⟩
          · rw [hget, if_pos hlast']; exact hlast
          · intro p row hp hr
            rw [hget] at hr
            split at hr
            · exact hr0 p row hp hr
            · cases hr
        | vec v =>
          intro p hp
          obtain ⟨hv1, hv2, hv3⟩ := hci p hp
          refine ⟨?_, ?_, hv3⟩
          · intro row hr
            rw [hget] at hr
            split at hr
            · exact hv1 row hr
            · cases hr
          · intro hr
            cases hold : a[i * CAP + p]? with
            | none => exact hv2 hold
            | some row0 =>
              rw [hget] at hr
              split at hr
              · rw [hold] at hr; cases hr
              · next hx =>
                have hdel := ((hrows _ row0 hold).1 (by omega)).2
                rw [(hv1 row0 hold).2.1, hdel]; rfl

/-! ### histories -/

theorem step_inv {t : Txn} (ht : t.ok) {m : Mgr} {a : Table} (h : Inv t m a) {op : Op} (hl : Legal t a op) :
    Inv t (m.step op).1 (a.step op).1 ∧ (m.step op).2 = (a.step op).2 := by
  cases op with
  | append tx s e =>
    obtain ⟨h1, h2, hs, he⟩ := hl
    subst hs
    obtain ⟨m', hm, hi⟩ := append_step h h1 h2 he
    simp only [Mgr.step, hm]
    exact ⟨hi, rfl⟩
  | commitAppend c s count =>
    obtain ⟨m', hm, hi⟩ := commitAppend_step ht.start_le h hl
    simp only [Mgr.step, hm]
    exact ⟨hi, rfl⟩
  | delete i tx rows => exact delete_step h hl
  | commitDelete i c info =>
    obtain ⟨m', hm, hi⟩ := commitDelete_step h hl
    simp only [Mgr.step, hm]
    exact ⟨hi, rfl⟩
  | cleanup lowest s count =>
    obtain ⟨m', hm, hi⟩ := cleanup_step ht.start_le h hl
    simp only [Mgr.step, hm]
    exact ⟨hi, rfl⟩
  | revert s => exact ⟨revert_step h hl, rfl⟩

theorem inv_init (t : Txn) : Inv t [] [] := by
  refine ⟨?_, fun _ _ => rfl, ?_⟩
  · intro r row hr; cases hr
  · intro i p row _ hr; cases hr

theorem run_inv {t : Txn} (ht : t.ok) : ∀ (ops : List Op) {m : Mgr} {a : Table}, Inv t m a → LegalHist t a ops →
    Inv t (m.run ops) (a.run ops) ∧ m.outs ops = a.outs ops := by
  intro ops
  induction ops with
  | nil => intro m a h _; exact ⟨h, rfl⟩
  | cons op ops ih =>
    intro m a h hl
    obtain ⟨h1, h2⟩ := step_inv ht h hl.1
    obtain ⟨h3, h4⟩ := ih h1 hl.2
    exact ⟨h3, by simp only [Mgr.outs, Table.outs, h2, h4]⟩

end Verif.Mvcc
