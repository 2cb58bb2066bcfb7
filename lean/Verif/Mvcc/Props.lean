import Verif.Mvcc.Steps2
/-!
C38 (row visibility) and C39 (conflicting deletes) for the row version manager.
-/
namespace Verif.Mvcc
open Verif

/-! ## C38 -/

/-- C38: after every history of appends, commits, deletes, clean-ups and undone appends (by any
number of transactions, interleaved in any way), a transaction's look-up of a row says "visible"
exactly when the row was inserted by the transaction itself or committed before it started, and has
not been deleted by the transaction itself or by a deletion committed before it started. -/
theorem C38_fetch {t : Txn} (ht : t.ok) {ops : List Op} (hl : LegalHist t [] ops) {r : Nat} {row : Row}
    (hr : (Table.run [] ops)[r]? = some row) :
    (Mgr.run [] ops).fetch t r = true ↔ row.visible t :=
  fetch_iff ht (run_inv ht ops (inv_init t) hl).1 hr

open Classical in
/-- C38: the same for a scan of one vector: it selects exactly the visible rows, in order. -/
theorem C38_scan {t : Txn} (ht : t.ok) {ops : List Op} (hl : LegalHist t [] ops) {i n : Nat} (hn : n ≤ CAP)
    (hlen : i * CAP + n ≤ (Table.run [] ops).length) :
    ∃ s, (Mgr.run [] ops).select t i n = .ok s ∧
      s.rows n = (List.range n).filter fun p =>
        decide (∃ row, (Table.run [] ops)[i * CAP + p]? = some row ∧ row.visible t) := by
  obtain ⟨s, h1, h2⟩ := select_eq_fetch ht (run_inv ht ops (inv_init t) hl).1 hn hlen
  refine ⟨s, h1, ?_⟩
  rw [h2]
  apply List.filter_congr
  intro p hp
  have hp := List.mem_range.mp hp
  have hr : (Table.run [] ops)[i * CAP + p]? = some ((Table.run [] ops)[i * CAP + p]'(by omega)) :=
    List.getElem?_eq_getElem (by omega)
  have := C38_fetch ht hl hr
  rw [Bool.eq_iff_iff, this, decide_eq_true_eq, hr]
  constructor
  · intro h; exact ⟨_, rfl, h⟩
  · rintro ⟨row, he, hv⟩; cases he; exact hv

/-- C38: every call of such a history reports what the specification says; in particular none fails
(no out-of-bounds access, no failed assertion, no refused append). -/
theorem C38_outcomes {t : Txn} (ht : t.ok) {ops : List Op} (hl : LegalHist t [] ops) :
    (Mgr.outs [] ops) = Table.outs [] ops :=
  (run_inv ht ops (inv_init t) hl).2

/-! Non-vacuity: three transactions on one vector. -/

/-- Transactions `A`, `B`, `C` (ids) used in the examples. -/
abbrev txA : Nat := TXN_START
abbrev txB : Nat := TXN_START + 1
abbrev txC : Nat := TXN_START + 2

/-- A appends two rows and commits; B deletes row 0; A appends one more, B appends another and takes
it back; B's delete is committed. -/
def sampleOps : List Op :=
  [.append txA 0 2, .commitAppend 5 0 2, .delete 0 txB [0], .append txA 2 3, .append txB 3 4, .revert 3,
    .commitDelete 0 6 (.rows [0]), .cleanup 5 0 2]

theorem sample_legal : LegalHist ⟨txC, 6⟩ [] sampleOps := by
  refine ⟨?_, ?_, ?_, ?_, ?_, ?_, ?_, ?_, trivial⟩
  · exact ⟨by decide, by decide, rfl, by decide⟩
  · refine ⟨by decide, by decide, txA, ?_, ?_⟩
    · intro r row hr _ _
      match r, hr with
      | 0, hr => cases hr; rfl
      | 1, hr => cases hr; rfl
      | _ + 2, hr => cases hr
    · intro r row hr _ _ _
      match r, hr with
      | 0, _ => decide
      | 1, _ => decide
      | _ + 2, hr => cases hr
  · refine ⟨by decide, by decide, by decide, ?_⟩
    intro p hp
    simp only [List.mem_singleton] at hp
    subst hp
    decide
  · exact ⟨by decide, by decide, rfl, by decide⟩
  · exact ⟨by decide, by decide, by decide, by decide⟩
  · refine ⟨by decide, txB, ?_⟩
    intro r row hr
    match r, hr with
    | 0, hr => cases hr; exact ⟨fun h => absurd h (by decide), fun _ => by decide⟩
    | 1, hr => cases hr; exact ⟨fun h => absurd h (by decide), fun _ => by decide⟩
    | 2, hr => cases hr; exact ⟨fun h => absurd h (by decide), fun _ => by decide⟩
    | 3, hr => cases hr; exact ⟨fun _ => by decide, fun h => absurd h (by decide)⟩
    | _ + 4, hr => cases hr
  · refine ⟨by decide, by decide, txB, ?_⟩
    intro p hp
    simp only [DelInfo.list, List.mem_singleton] at hp
    subst hp
    exact ⟨by decide, _, rfl, rfl⟩
  · refine ⟨by decide, by decide, ?_⟩
    intro i row h1 h2 hr
    have : i = 0 := by unfold CAP at h2; omega
    subst this
    cases hr
    exact ⟨5, rfl, by decide⟩

/-- The history really has visible, invisible and deleted rows: with start 6 the delete at 6 is not
seen yet, and A's open row is hidden. -/
example : (Table.run [] sampleOps) =
    [⟨.at 5, some (.at 6)⟩, ⟨.at 5, none⟩, ⟨.pending txA, none⟩] := by decide +kernel
example : [0, 1, 2].map (fun r => (Mgr.run [] sampleOps).fetch ⟨txC, 6⟩ r) = [true, true, false] := by decide +kernel
example : [0, 1, 2].map (fun r => (Mgr.run [] sampleOps).fetch ⟨txC, 7⟩ r) = [false, true, false] := by decide +kernel
example : (⟨txC, 6⟩ : Txn).ok := ⟨by decide, by decide, by decide⟩
/-- Hypotheses and conclusion of `C38_scan` on it. -/
example : ∃ s, (Mgr.run [] sampleOps).select ⟨txC, 6⟩ 0 3 = .ok s ∧ s.rows 3 = [0, 1] := by
  refine ⟨_, rfl, ?_⟩
  decide +kernel

/-! ### where visibility breaks -/

/-- C38 without the condition on row 0 of a vector: clean-up after B's commit. -/
def C38_cleanup_claim : Prop :=
  ∀ (t : Txn) (ops : List Op) (lowest s count : Nat), t.ok → LegalHist t [] ops → lowest < t.start →
    s + count ≤ (Table.run [] ops).length →
    ∀ r, (((Mgr.run [] ops).step (.cleanup lowest s count)).1.fetch t r = (Mgr.run [] ops).fetch t r)

/-- A appends row 0 and stays open; B appends rows 1, ..., 1023 and commits at 5. -/
def cleanupOps : List Op := [.append txA 0 1, .append txB 1 1024, .commitAppend 5 1 1023]

theorem run_two {tx tx' s e : Nat} :
    Table.run [] [.append tx 0 s, .append tx' s e] =
      List.replicate s ⟨.pending tx, none⟩ ++ List.replicate (e - s) ⟨.pending tx', none⟩ := by
  simp only [Table.run, Table.step, List.nil_append, Nat.sub_zero]

theorem cleanup_legal : LegalHist ⟨txC, 7⟩ [] cleanupOps := by
  refine ⟨⟨by decide, by decide, rfl, by decide⟩, ⟨by decide, by decide, by decide, by decide⟩, ?_, trivial⟩
  change Legal ⟨txC, 7⟩ (Table.run [] [.append txA 0 1, .append txB 1 1024]) _
  rw [run_two]
  have hget : ∀ r (row : Row), (List.replicate 1 (⟨.pending txA, none⟩ : Row) ++
      List.replicate (1024 - 1) ⟨.pending txB, none⟩)[r]? = some row →
      r < 1024 ∧ (r = 0 → row.ins = .pending txA) ∧ (r ≠ 0 → row.ins = .pending txB) := by
    intro r row hr
    rw [List.getElem?_append] at hr
    simp only [List.length_replicate, List.getElem?_replicate] at hr
    split at hr
    · next h0 =>
      simp only [Option.some.injEq] at hr
      subst hr
      exact ⟨by omega, fun _ => rfl, fun h => absurd h (by omega)⟩
    · split at hr
      · simp only [Option.some.injEq] at hr
        subst hr
        exact ⟨by omega, fun h => by omega, fun _ => rfl⟩
      · cases hr
  refine ⟨by decide, ?_, txB, ?_, ?_⟩
  · simp only [List.length_append, List.length_replicate]; omega
  · intro r row hr h1 h2
    exact (hget r row hr).2.2 (by omega)
  · intro r row hr hp _ _
    obtain ⟨h1, h2, _⟩ := hget r row hr
    rcases Nat.eq_zero_or_pos r with h0 | h0
    · rw [h2 h0] at hp
      simp only [Stamp.pending.injEq, txA, txB] at hp
      omega
    · omega

/-- C38, disagreement: clean-up drops the stamps of a vector without looking at its first row (the
loop of row_version_manager.cpp:232-242 starts at 1), so A's uncommitted row 0 becomes visible to
everybody. -/
theorem C38_cleanup_fails : ¬ C38_cleanup_claim := by
  intro h
  have h1 : (Table.run [] cleanupOps).length = 1024 := by decide +kernel
  have := h ⟨txC, 7⟩ cleanupOps 6 1 1023 ⟨by decide, by decide, by decide⟩ cleanup_legal (by decide)
    (by rw [h1]; decide) 0
  revert this
  decide +kernel

/-- C38 for clean-up, the part that holds: when row 0 of every cleaned vector was committed by
`lowest`, no row changes its visibility for any transaction that starts later. -/
theorem C38_cleanup_partial {t : Txn} (ht : t.ok) {ops : List Op} (hl : LegalHist t [] ops) {lowest s count : Nat}
    (hc : Legal t (Table.run [] ops) (.cleanup lowest s count)) {r : Nat} (hr : r < (Table.run [] ops).length) :
    ((Mgr.run [] ops).step (.cleanup lowest s count)).1.fetch t r = (Mgr.run [] ops).fetch t r := by
  have hi := (run_inv ht ops (inv_init t) hl).1
  have hi' := (step_inv ht hi hc).1
  have hrow : (Table.run [] ops)[r]? = some ((Table.run [] ops)[r]'hr) := List.getElem?_eq_getElem hr
  rw [Bool.eq_iff_iff, fetch_iff ht hi hrow]
  exact fetch_iff ht hi' hrow

example : Legal ⟨txC, 6⟩ (Table.run [] sampleOps) (.cleanup 5 0 2) := by
  refine ⟨by decide, by decide, ?_⟩
  intro i row h1 h2 hr
  have : i = 0 := by unfold CAP at h2; omega
  subst this
  cases hr
  exact ⟨5, rfl, by decide⟩

/-- C38: `lowest` has to lie strictly before every reader's start. With `lowest = start` (the start
of the oldest open transaction) a row committed at exactly that time appears in the middle of the
reader's life. -/
theorem C38_cleanup_boundary_fails :
    let ops := [Op.append txA 0 1024, .commitAppend 5 0 1024]
    let t : Txn := ⟨txC, 5⟩
    (Mgr.run [] ops).fetch t 0 = false ∧ ((Mgr.run [] ops).step (.cleanup 5 0 1024)).1.fetch t 0 = true := by
  decide +kernel

/-! ## C39 -/

/-- What a successful delete reports: the rows that were live before, each now deleted. -/
theorem delete_spec (tx base : Nat) : ∀ (rows : List Nat) (a : Table) (acc l : List Nat),
    (Table.delete tx base rows a acc).2 = .deleted l →
    ∀ p, p ∈ l → p ∈ acc ∨ (p ∈ rows ∧ (∃ row, a[base + p]? = some row ∧ row.del = none) ∧
      ∃ row, (Table.delete tx base rows a acc).1[base + p]? = some row ∧ row.del = some (.pending tx)) := by
  have keep : ∀ (rows : List Nat) (a : Table) (acc : List Nat) (r : Nat) (row : Row), a[r]? = some row → row.del ≠ none →
      (Table.delete tx base rows a acc).1[r]? = some row := by
    intro rows
    induction rows with
    | nil => intro a acc r row hr _; exact hr
    | cons p ps ih =>
      intro a acc r row hr hd
      unfold Table.delete
      cases hp : a[base + p]? with
      | none => exact hr
      | some rp =>
        simp only
        cases hdel : rp.del with
        | none =>
          simp only
          apply ih _ _ _ _ _ hd
          have hne : base + p ≠ r := by
            intro he; subst he
            rw [hp] at hr; cases hr; exact hd hdel
          rw [List.getElem?_set_ne hne]; exact hr
        | some d =>
          simp only
          split
          · exact ih _ _ _ _ hr hd
          · exact hr
  intro rows
  induction rows with
  | nil =>
    intro a acc l h p hp
    simp only [Table.delete, Out.deleted.injEq] at h
    subst h
    exact Or.inl (List.mem_reverse.mp hp)
  | cons q qs ih =>
    intro a acc l h p hp
    unfold Table.delete at h
    cases hq : a[base + q]? with
    | none => rw [hq] at h; cases h
    | some rq =>
      rw [hq] at h
      simp only at h
      cases hdel : rq.del with
      | some d =>
        rw [hdel] at h
        simp only at h
        split at h
        · next hd =>
          have e : Table.delete tx base (q :: qs) a acc = Table.delete tx base qs a acc := by
            rw [Table.delete]; simp only [hq, hdel, if_pos hd]
          rw [e]
          rcases ih a acc l h p hp with h1 | ⟨h1, h2, h3⟩
          · exact Or.inl h1
          · exact Or.inr ⟨List.mem_cons_of_mem _ h1, h2, h3⟩
        · cases h
      | none =>
        rw [hdel] at h
        simp only at h
        have e : Table.delete tx base (q :: qs) a acc
            = Table.delete tx base qs (a.set (base + q) { rq with del := some (.pending tx) }) (q :: acc) := by
          rw [Table.delete]; simp only [hq, hdel]
        have hql : base + q < a.length := by
          rcases Nat.lt_or_ge (base + q) a.length with hx | hx
          · exact hx
          · rw [List.getElem?_eq_none hx] at hq; cases hq
        rw [e]
        have hqnew : ∃ row, (Table.delete tx base qs (a.set (base + q) { rq with del := some (.pending tx) }) (q :: acc)).1[base + q]?
            = some row ∧ row.del = some (.pending tx) := by
          refine ⟨{ rq with del := some (.pending tx) }, ?_, rfl⟩
          apply keep
          · rw [List.getElem?_set_self hql]
          · simp
        rcases ih _ _ l h p hp with h1 | ⟨h1, ⟨row, h2, h2'⟩, h3⟩
        · rcases List.mem_cons.mp h1 with h1 | h1
          · subst h1
            exact Or.inr ⟨List.mem_cons_self .., ⟨rq, hq, hdel⟩, hqnew⟩
          · exact Or.inl h1
        · refine Or.inr ⟨List.mem_cons_of_mem _ h1, ?_, h3⟩
          by_cases hpq : p = q
          · subst hpq; exact ⟨rq, hq, hdel⟩
          · rw [List.getElem?_set_ne (by omega)] at h2
            exact ⟨row, h2, h2'⟩

theorem delete_keep (tx base : Nat) : ∀ (rows : List Nat) (a : Table) (acc : List Nat) (r : Nat) (row : Row),
    a[r]? = some row → row.del ≠ none → (Table.delete tx base rows a acc).1[r]? = some row := by
  intro rows
  induction rows with
  | nil => intro a acc r row hr _; exact hr
  | cons p ps ih =>
    intro a acc r row hr hd
    unfold Table.delete
    cases hp : a[base + p]? with
    | none => exact hr
    | some rp =>
      simp only
      cases hdel : rp.del with
      | none =>
        simp only
        apply ih _ _ _ _ _ hd
        have hne : base + p ≠ r := by
          intro he; subst he
          rw [hp] at hr; cases hr; exact hd hdel
        rw [List.getElem?_set_ne hne]; exact hr
      | some d =>
        simp only
        split
        · exact ih _ _ _ _ hr hd
        · exact hr

/-- A deletion mark by `tx` stays, unless it is turned into a committed one. -/
def Marked (tx r : Nat) (a : Table) : Prop :=
  ∃ row, a[r]? = some row ∧ (row.del = some (.pending tx) ∨ ∃ c, row.del = some (.at c))

theorem marked_step {t : Txn} {a : Table} {op : Op} {tx r : Nat} (hl : Legal t a op) (h : Marked tx r a) :
    Marked tx r (a.step op).1 := by
  obtain ⟨row, hr, hd⟩ := h
  have hdn : row.del ≠ none := by rcases hd with h | ⟨c, h⟩ <;> rw [h] <;> simp
  have hrl : r < a.length := by
    rcases Nat.lt_or_ge r a.length with hx | hx
    · exact hx
    · rw [List.getElem?_eq_none hx] at hr; cases hr
  cases op with
  | append x s e =>
    refine ⟨row, ?_, hd⟩
    simp only [Table.step]
    rw [List.getElem?_append_left hrl]; exact hr
  | commitAppend c s count =>
    simp only [Marked, Table.step, mapIdx_get, hr, Option.map_some, Option.some.injEq, exists_eq_left']
    split <;> exact hd
  | delete i x rows => exact ⟨row, delete_keep _ _ _ _ _ _ _ hr hdn, hd⟩
  | commitDelete i c info =>
    simp only [Marked, Table.step, mapIdx_get, hr, Option.map_some, Option.some.injEq, exists_eq_left']
    split
    · exact Or.inr ⟨c, rfl⟩
    · exact hd
  | cleanup _ _ _ => exact ⟨row, hr, hd⟩
  | revert s =>
    obtain ⟨_, x, hx⟩ := hl
    have hrs : r < s := by
      rcases Nat.lt_or_ge r s with h | h
      · exact h
      · exact absurd ((hx r row hr).1 h).2 hdn
    refine ⟨row, ?_, hd⟩
    simp only [Table.step]
    rw [List.getElem?_take, if_pos hrs]; exact hr

theorem marked_run {t : Txn} {tx r : Nat} : ∀ (ops : List Op) {a : Table}, LegalHist t a ops → Marked tx r a →
    Marked tx r (a.run ops) := by
  intro ops
  induction ops with
  | nil => intro a _ h; exact h
  | cons op ops ih => intro a hl h; exact ih hl.2 (marked_step hl.1 h)

/-- A delete that meets a row deleted by somebody else is refused. -/
theorem delete_conflict (tx base : Nat) : ∀ (rows : List Nat) (a : Table) (acc : List Nat),
    (∀ p, p ∈ rows → base + p < a.length) →
    ∀ p row d, p ∈ rows → a[base + p]? = some row → row.del = some d → d ≠ .pending tx →
    (Table.delete tx base rows a acc).2 = .conflict := by
  intro rows
  induction rows with
  | nil => intro a acc _ p row d hp; cases hp
  | cons q qs ih =>
    intro a acc hlen p row d hp hr hd hne
    unfold Table.delete
    have hql := hlen q (List.mem_cons_self ..)
    have hq : a[base + q]? = some (a[base + q]'hql) := List.getElem?_eq_getElem hql
    simp only [hq]
    cases hdel : (a[base + q]'hql).del with
    | none =>
      simp only
      have hpq : p ≠ q := by
        intro he; subst he
        rw [hq] at hr; cases hr
        rw [hdel] at hd; cases hd
      refine ih _ _ ?_ p row d ?_ ?_ hd hne
      · intro x hx; rw [List.length_set]; exact hlen x (List.mem_cons_of_mem _ hx)
      · rcases List.mem_cons.mp hp with h | h
        · exact absurd h hpq
        · exact h
      · rw [List.getElem?_set_ne (by omega)]; exact hr
    | some dq =>
      simp only
      split
      · next hdq =>
        have hpq : p ≠ q := by
          intro he; subst he
          rw [hq] at hr; cases hr
          rw [hdel] at hd; cases hd
          exact hne hdq
        refine ih _ _ (fun x hx => hlen x (List.mem_cons_of_mem _ hx)) p row d ?_ hr hd hne
        rcases List.mem_cons.mp hp with h | h
        · exact absurd h hpq
        · exact h
      · rfl

theorem legalHist_append {t : Txn} : ∀ (o1 o2 : List Op) (a : Table), LegalHist t a (o1 ++ o2) →
    LegalHist t a o1 ∧ LegalHist t (a.run o1) o2 := by
  intro o1
  induction o1 with
  | nil => intro o2 a h; exact ⟨trivial, h⟩
  | cons op o1 ih =>
    intro o2 a h
    obtain ⟨h1, h2⟩ := ih o2 _ h.2
    exact ⟨⟨h.1, h1⟩, h2⟩

theorem run_append (o1 o2 : List Op) (m : Mgr) : m.run (o1 ++ o2) = (m.run o1).run o2 := by
  induction o1 generalizing m with
  | nil => rfl
  | cons op o1 ih => exact ih _

/-- C39: once a transaction's delete has reported a row as deleted, no delete of that row by another
transaction succeeds, whatever happens in between: it is refused with a conflict. -/
theorem C39_second_delete_refused {t : Txn} (ht : t.ok) {ops ops' : List Op} {i tx tx' : Nat} {rows rows' l : List Nat}
    (hl : LegalHist t [] (ops ++ .delete i tx rows :: ops' ++ [.delete i tx' rows']))
    (h1 : ((Mgr.run [] ops).step (.delete i tx rows)).2 = .deleted l)
    (hne : tx ≠ tx') {p : Nat} (hp : p ∈ l) (hp' : p ∈ rows') :
    ((Mgr.run [] (ops ++ .delete i tx rows :: ops')).step (.delete i tx' rows')).2 = .conflict := by
  obtain ⟨hla, hlb⟩ := legalHist_append _ _ _ hl
  obtain ⟨hl0, hl1⟩ := legalHist_append _ _ _ hla
  have hi0 := (run_inv ht ops (inv_init t) hl0).1
  obtain ⟨_, e1⟩ := step_inv ht hi0 hl1.1
  rw [h1] at e1
  have hmark : Marked tx (i * CAP + p) ((Table.run [] ops).step (.delete i tx rows)).1 := by
    rcases delete_spec tx (i * CAP) rows (Table.run [] ops) [] l e1.symm p hp with h | ⟨_, _, row, hr, hd⟩
    · cases h
    · exact ⟨row, hr, Or.inl hd⟩
  have hmark2 := marked_run ops' hl1.2 hmark
  have hi := (run_inv ht _ (inv_init t) hla).1
  rw [(step_inv ht hi hlb.1).2]
  obtain ⟨_, _, _, hrows⟩ := hlb.1
  have hrun : Table.run [] (ops ++ .delete i tx rows :: ops')
      = ((Table.run [] ops).step (.delete i tx rows)).1.run ops' := by
    have : ∀ (o1 o2 : List Op) (a : Table), a.run (o1 ++ o2) = (a.run o1).run o2 := by
      intro o1 o2
      induction o1 with
      | nil => intro a; rfl
      | cons op o1 ih => intro a; exact ih _
    exact this _ _ _
  rw [← hrun] at hmark2
  obtain ⟨row, hr, hd⟩ := hmark2
  have hne' : ∀ d, row.del = some d → d ≠ .pending tx' := by
    intro d hdd he
    subst he
    rcases hd with h | ⟨c, h⟩
    · rw [hdd] at h; cases h; exact hne rfl
    · rw [hdd] at h; cases h
  cases hdd : row.del with
  | none => rcases hd with h | ⟨c, h⟩ <;> rw [hdd] at h <;> cases h
  | some d =>
    exact delete_conflict tx' (i * CAP) rows' _ [] (fun q hq => (hrows q hq).2) p row d hp' hr hdd (hne' d hdd)

/-- C39: and a row a delete reports is reported once: no later delete by anybody (the same
transaction included) reports it again. -/
theorem C39_reported_once {t : Txn} (ht : t.ok) {ops ops' : List Op} {i tx tx' : Nat} {rows rows' l l' : List Nat}
    (hl : LegalHist t [] (ops ++ .delete i tx rows :: ops' ++ [.delete i tx' rows']))
    (h1 : ((Mgr.run [] ops).step (.delete i tx rows)).2 = .deleted l)
    (h2 : ((Mgr.run [] (ops ++ .delete i tx rows :: ops')).step (.delete i tx' rows')).2 = .deleted l')
    {p : Nat} (hp : p ∈ l) : p ∉ l' := by
  intro hp'
  obtain ⟨hla, hlb⟩ := legalHist_append _ _ _ hl
  obtain ⟨hl0, hl1⟩ := legalHist_append _ _ _ hla
  have hi0 := (run_inv ht ops (inv_init t) hl0).1
  obtain ⟨_, e1⟩ := step_inv ht hi0 hl1.1
  rw [h1] at e1
  have hmark : Marked tx (i * CAP + p) ((Table.run [] ops).step (.delete i tx rows)).1 := by
    rcases delete_spec tx (i * CAP) rows (Table.run [] ops) [] l e1.symm p hp with h | ⟨_, _, row, hr, hd⟩
    · cases h
    · exact ⟨row, hr, Or.inl hd⟩
  have hmark2 := marked_run ops' hl1.2 hmark
  have hi := (run_inv ht _ (inv_init t) hla).1
  rw [(step_inv ht hi hlb.1).2] at h2
  have hrun : Table.run [] (ops ++ .delete i tx rows :: ops')
      = ((Table.run [] ops).step (.delete i tx rows)).1.run ops' := by
    have : ∀ (o1 o2 : List Op) (a : Table), a.run (o1 ++ o2) = (a.run o1).run o2 := by
      intro o1 o2
      induction o1 with
      | nil => intro a; rfl
      | cons op o1 ih => intro a; exact ih _
    exact this _ _ _
  rw [← hrun] at hmark2
  obtain ⟨row, hr, hd⟩ := hmark2
  rcases delete_spec tx' (i * CAP) rows' _ [] l' h2 p hp' with h | ⟨_, ⟨row', hr', hd'⟩, _⟩
  · cases h
  · rw [hr] at hr'
    cases hr'
    rcases hd with h | ⟨c, h⟩ <;> rw [hd'] at h <;> cases h

/-! Non-vacuity of both: B deletes row 0, then C tries. -/

def conflictOps : List Op := [.append txA 0 2, .commitAppend 5 0 2]

theorem conflict_legal : LegalHist ⟨txC, 6⟩ [] (conflictOps ++ .delete 0 txB [0] :: [] ++ [.delete 0 txC [1, 0]]) := by
  have h := sample_legal
  refine ⟨h.1, h.2.1, h.2.2.1, ?_, trivial⟩
  refine ⟨by decide, by decide, by decide, ?_⟩
  intro p hp
  simp only [List.mem_cons, List.not_mem_nil, or_false] at hp
  rcases hp with hp | hp <;> subst hp <;> decide

example : ((Mgr.run [] conflictOps).step (.delete 0 txB [0])).2 = .deleted [0] := rfl
example : ((Mgr.run [] (conflictOps ++ .delete 0 txB [0] :: [])).step (.delete 0 txC [1, 0])).2 = .conflict :=
  C39_second_delete_refused (t := ⟨txC, 6⟩) ⟨by decide, by decide, by decide⟩ conflict_legal rfl (by decide)
    (List.mem_singleton.mpr rfl) (by decide)

/-- What one would like of a refused delete: nothing has changed for anybody. -/
def C39_refused_changes_nothing_claim : Prop :=
  ∀ (t : Txn) (ops : List Op) (i tx : Nat) (rows : List Nat), t.ok → LegalHist t [] (ops ++ [.delete i tx rows]) →
    ((Mgr.run [] ops).step (.delete i tx rows)).2 = .conflict →
    ∀ r, ((Mgr.run [] ops).step (.delete i tx rows)).1.fetch t r = (Mgr.run [] ops).fetch t r

/-- C39, disagreement: a refused delete leaves the rows before the conflicting one marked
(row_version_manager.cpp:182-192 throws in the middle of the loop, nothing takes the marks back). Row 1
has disappeared for C, although C's delete was refused. -/
theorem C39_refused_changes_nothing_fails : ¬ C39_refused_changes_nothing_claim := by
  intro h
  have := h ⟨txC, 6⟩ (conflictOps ++ .delete 0 txB [0] :: []) 0 txC [1, 0] ⟨by decide, by decide, by decide⟩
    conflict_legal rfl 1
  revert this
  decide +kernel

/-- C39, disagreement: taking back an append in the middle of a vector keeps the deletion marks of
the removed rows (row_version_manager.cpp:437-444 only drops whole vectors). Here A appends rows 0, 1,
deletes row 1 and takes back row 1; B appends a new row 1 and commits; nobody has deleted that row, yet
C's delete of it is refused. -/
theorem C39_stale_mark_fails :
    let ops := [Op.append txA 0 2, .delete 0 txA [1], .revert 1, .append txB 1 2, .commitAppend 5 1 1]
    (Table.run [] ops)[1]? = some ⟨.at 5, none⟩ ∧
    ((Mgr.run [] ops).step (.delete 0 txC [1])).2 = .conflict := by
  refine ⟨by decide +kernel, rfl⟩

end Verif.Mvcc
