import Verif.SchemaTxn.Spec
import Mathlib.Data.List.Induction
import Mathlib.Data.List.Nodup
/-!
C37: schema transactions are atomic.
-/
namespace Verif.SchemaTxn

/-! ### only a successful commit changes the table, once -/

/-- The scope is done. -/
def Scope.done (s : Scope) : Bool := s.committed || s.aborted

/-- In every state of every history, an action of the scope changes the world only if it is a commit, the scope was not
done and had no error; it then leaves the scope committed without error, and the table has become what the recorded
changes make of it. -/
theorem C37_only_commit (w : World) (acts : List Act) (s s' : St) (a : Act) (_h : Hist w acts s) (hs : actStep s a = .ok s')
    (ha : ∀ w', a ≠ .world w') (hne : s'.world ≠ s.world) :
    a = .commit ∧ s.scope.done = false ∧ s.scope.err = false ∧ s.scope.txn.err = false ∧
    s'.scope.committed = true ∧ s'.scope.err = false ∧
    ∃ T, s.world = ⟨true, some T⟩ ∧ s'.world = ⟨true, some (MDiff.apply ⟨s.scope.txn.sdiff, s.scope.txn.mdiff.desc⟩ T)⟩ := by
  cases a with
  | op o =>
    simp only [actStep] at hs
    cases hc : s.scope.txn.call o with
    | ok t => rw [hc] at hs; cases hs; exact absurd rfl hne
    | ub => rw [hc] at hs; cases hs
    | throws => rw [hc] at hs; cases hs
    | diverges => rw [hc] at hs; cases hs
  | abort => cases hs; exact absurd rfl hne
  | destroy => cases hs; exact absurd rfl hne
  | world w' => exact absurd rfl (ha w')
  | gone => cases hs; exact absurd rfl hne
  | commit =>
    refine ⟨rfl, ?_⟩
    cases hs
    obtain ⟨⟨committed, aborted, err, alive, txn⟩, ⟨ns, table⟩⟩ := s
    simp only [Scope.commit, Scope.done] at hne ⊢
    cases committed <;> cases aborted <;> cases err <;> cases alive <;> simp at hne ⊢
    cases ht : txn.err <;> simp only [ht] at hne ⊢ <;> simp at hne ⊢
    by_cases hact : txn.state = .active
    · simp only [hact, if_true] at hne ⊢
      cases hch : (MDiff.hasChanges ⟨txn.sdiff, txn.mdiff.desc⟩)
      · rw [hch] at hne; simp at hne
      · rw [hch] at hne
        cases ns
        · simp at hne
        · cases table with
          | none => simp at hne
          | some T => simp
    · simp [hact] at hne

theorem done_commit (sc : Scope) (w : World) (hd : sc.done = true) : (sc.commit w).2.1 = w ∧ (sc.commit w).1.done = true := by
  obtain ⟨committed, aborted, err, alive, txn⟩ := sc
  simp only [Scope.done] at hd
  simp only [Scope.commit, hd, if_true]
  cases committed <;> cases aborted <;> cases alive <;> simp_all [Scope.abort, Scope.done]

theorem done_step (s s' : St) (a : Act) (hd : s.scope.done = true) (hs : actStep s a = .ok s') (ha : ∀ w', a ≠ .world w') :
    s'.scope.done = true ∧ s'.world = s.world := by
  cases a with
  | op o =>
    simp only [actStep] at hs
    cases hc : s.scope.txn.call o with
    | ok t => rw [hc] at hs; cases hs; exact ⟨hd, rfl⟩
    | ub => rw [hc] at hs; cases hs
    | throws => rw [hc] at hs; cases hs
    | diverges => rw [hc] at hs; cases hs
  | abort =>
    cases hs
    refine ⟨?_, rfl⟩
    show s.scope.abort.done = true
    unfold Scope.abort
    obtain ⟨⟨committed, aborted, err, alive, txn⟩, w⟩ := s
    simp only [Scope.done] at hd
    cases committed <;> cases aborted <;> simp_all [Scope.done]
  | destroy =>
    cases hs
    refine ⟨?_, rfl⟩
    show s.scope.destroy.done = true
    unfold Scope.destroy
    obtain ⟨⟨committed, aborted, err, alive, txn⟩, w⟩ := s
    simp only [Scope.done] at hd
    cases committed <;> cases aborted <;> simp_all [Scope.done]
  | world w' => exact absurd rfl (ha w')
  | gone => cases hs; exact ⟨hd, rfl⟩
  | commit =>
    cases hs
    exact ⟨(done_commit s.scope s.world hd).2, (done_commit s.scope s.world hd).1⟩

theorem excl_abort (s : Scope) (h : ¬ (s.committed = true ∧ s.aborted = true)) : ¬ (s.abort.committed = true ∧ s.abort.aborted = true) := by
  obtain ⟨committed, aborted, err, alive, txn⟩ := s
  cases committed <;> cases aborted <;> simp_all [Scope.abort]

theorem excl_commit (s : Scope) (w : World) (h : ¬ (s.committed = true ∧ s.aborted = true)) :
    ¬ ((s.commit w).1.committed = true ∧ (s.commit w).1.aborted = true) := by
  unfold Scope.commit
  have k1 : ∀ s' : Scope, s'.committed = s.committed → s'.aborted = s.aborted → ¬ (s'.committed = true ∧ s'.aborted = true) := by
    intro s' e1 e2; rw [e1, e2]; exact h
  cases hd : (s.committed || s.aborted)
  · simp only [Bool.false_eq_true, if_false]
    obtain ⟨hc, ha⟩ : s.committed = false ∧ s.aborted = false := by simpa using hd
    cases hl : s.alive
    · simp only [Bool.not_false, if_true]
      exact excl_abort _ (k1 _ rfl rfl)
    · simp only [Bool.not_true, Bool.false_eq_true, if_false]
      split
      · exact excl_abort _ (k1 _ rfl rfl)
      · split
        · exact excl_abort _ (k1 _ rfl rfl)
        · split
          · split
            · simp [ha]
            · split
              · exact k1 _ rfl rfl
              · split
                · exact excl_abort _ (k1 _ rfl rfl)
                · simp [ha]
          · exact excl_abort _ (k1 _ rfl rfl)
  · simp only [if_true]
    cases hl : s.alive
    · simp only [Bool.not_false, if_true]
      exact excl_abort _ (k1 _ rfl rfl)
    · simp only [Bool.not_true, Bool.false_eq_true, if_false]
      simp only [if_true]
      exact excl_abort _ (k1 _ rfl rfl)

/-- No history ends both committed and aborted; after a commit, `abort` is refused with an error and the scope stays
committed. -/
theorem C37_exclusive (w : World) (acts : List Act) (s : St) (h : Hist w acts s) : ¬ (s.scope.committed = true ∧ s.scope.aborted = true) ∧
    (s.scope.committed = true → ∃ s', actStep s .abort = .ok s' ∧ s'.scope.err = true ∧ s'.scope.committed = true ∧ s'.scope.aborted = false ∧
      s'.world = s.world) := by
  have step : ∀ (s s' : St) a, actStep s a = .ok s' → ¬ (s.scope.committed = true ∧ s.scope.aborted = true) →
      ¬ (s'.scope.committed = true ∧ s'.scope.aborted = true) := by
    intro s s' a hs h
    cases a with
    | op o =>
      simp only [actStep] at hs
      cases hc : s.scope.txn.call o with
      | ok t => rw [hc] at hs; cases hs; exact h
      | ub => rw [hc] at hs; cases hs
      | throws => rw [hc] at hs; cases hs
      | diverges => rw [hc] at hs; cases hs
    | abort => cases hs; exact excl_abort _ h
    | destroy =>
      cases hs
      show ¬ (s.scope.destroy.committed = true ∧ s.scope.destroy.aborted = true)
      unfold Scope.destroy
      split
      · exact excl_abort _ h
      · exact h
    | world w' => cases hs; exact h
    | gone => cases hs; exact h
    | commit => cases hs; exact excl_commit _ _ h
  have hx : ¬ (s.scope.committed = true ∧ s.scope.aborted = true) := by
    induction h with
    | init => simp [Scope.begin]
    | step _ hs ih => exact step _ _ _ hs ih
  refine ⟨hx, fun hc => ⟨_, rfl, ?_, ?_, ?_, rfl⟩⟩
  · simp [Scope.abort, hc]
  · simp [Scope.abort, hc]
  · have : s.scope.aborted = false := by
      cases e : s.scope.aborted
      · rfl
      · exact absurd ⟨hc, e⟩ hx
    simp [Scope.abort, hc, this]

/-- Once the scope is committed or aborted it never changes the world again. -/
theorem C37_once (s : St) (acts : List Act) (hd : s.scope.done = true) (ha : ∀ a ∈ acts, ∀ w', a ≠ .world w') (s' : St)
    (hr : actRun acts s = .ok s') : s'.world = s.world ∧ s'.scope.done = true := by
  induction acts generalizing s with
  | nil => cases hr; exact ⟨rfl, hd⟩
  | cons a acts ih =>
    simp only [actRun] at hr
    cases hs : actStep s a with
    | ok s1 =>
      rw [hs] at hr
      obtain ⟨d1, w1⟩ := done_step s s1 a hd hs (ha a (List.mem_cons_self))
      obtain ⟨r1, r2⟩ := ih s1 d1 (fun x hx => ha x (List.mem_cons_of_mem _ hx)) hr
      exact ⟨r1.trans w1, r2⟩
    | ub => rw [hs] at hr; cases hr
    | throws => rw [hs] at hr; cases hr
    | diverges => rw [hs] at hr; cases hr

def col (a : Name) (base id : Nat) : Col := ⟨⟨base, some (0, a)⟩, id, true, ""⟩

/-- A table, changes, a commit, and a second commit that changes nothing. -/
def sampleActs : List Act := [.op (.rename "a" "b"), .op (.add "c" ⟨7, none⟩ false "new"), .commit, .op (.delete "b"), .commit]

example : (actRun sampleActs ⟨Scope.begin, ⟨true, some ⟨[col "a" 5 1], ""⟩⟩⟩).bind (fun s => .ok s.world) =
    .ok ⟨true, some ⟨[col "b" 5 1, ⟨⟨7, some (0, "c")⟩, 0, false, "new"⟩], ""⟩⟩ := by decide +kernel

/-- `C37_exclusive` applies to a history that ends committed. -/
example : ∃ s, Hist ⟨true, some ⟨[col "a" 5 1], ""⟩⟩ [.op (.rename "a" "b"), .commit] s ∧ s.scope.committed = true := by
  have h1 := Hist.step (a := .op (.rename "a" "b")) (Hist.init (w := ⟨true, some ⟨[col "a" 5 1], ""⟩⟩)) rfl
  exact ⟨_, Hist.step (a := .commit) h1 rfl, by decide +kernel⟩

/-! ### savepoints -/

theorem lookup_snoc {β : Type} (l : List (Name × β)) (k a : Name) (v : β) :
    (l ++ [(k, v)]).lookup a = match l.lookup a with | some x => some x | none => if a = k then some v else none := by
  induction l with
  | nil =>
    simp only [List.nil_append, List.lookup_cons, List.lookup_nil]
    by_cases h : a = k
    · simp [h]
    · have : (a == k) = false := by simpa using h
      rw [this, if_neg h]
  | cons p l ih =>
    obtain ⟨x, y⟩ := p
    rw [List.cons_append, List.lookup_cons, List.lookup_cons]
    cases a == x
    · exact ih
    · rfl

theorem lookup_emplace {β : Type} (l : List (Name × β)) (k a : Name) (v : β) :
    (emplace l k v).lookup a = match l.lookup a with | some x => some x | none => if a = k then some v else none := by
  unfold emplace
  cases h : l.lookup k with
  | none => exact lookup_snoc l k a v
  | some y =>
    cases h2 : l.lookup a with
    | some x => simp [h2]
    | none =>
      simp only [h2]
      split
      · rename_i he
        rw [he, h] at h2; cases h2
      · rfl

/-- Saved states are never lost or changed. -/
theorem saves_kept (ops : List Op) (t t' : Txn) (h : txnRun ops t = .ok t') (s : Name) (p : MDiff × Diff) (hs : t.saves.lookup s = some p) :
    t'.saves.lookup s = some p := by
  induction ops generalizing t with
  | nil => cases h; exact hs
  | cons o ops ih =>
    simp only [txnRun] at h
    cases hc : t.call o with
    | ok t1 =>
      rw [hc] at h
      refine ih t1 h ?_
      unfold Txn.call at hc
      split at hc
      · cases hc; exact hs
      · split at hc
        · cases o with
          | savepoint s' =>
            simp only [Txn.act] at hc
            cases hc
            show (emplace _ _ _).lookup s = some p
            rw [lookup_emplace, hs]
          | rollback s' =>
            simp only [Txn.act] at hc
            cases hl : t.saves.lookup s' with
            | none => rw [hl] at hc; cases hc; exact hs
            | some q => rw [hl] at hc; cases hc; exact hs
          | updateType a ty =>
            simp only [Txn.act] at hc
            cases hu : t.sdiff.updateType a ty with
            | ok D => rw [hu] at hc; cases hc; exact hs
            | ub => rw [hu] at hc; cases hc
            | throws => rw [hu] at hc; cases hc
            | diverges => rw [hu] at hc; cases hc
          | _ => simp only [Txn.act] at hc; cases hc; exact hs
        · cases hc; exact hs
    | ub => rw [hc] at h; cases h
    | throws => rw [hc] at h; cases h
    | diverges => rw [hc] at h; cases h

theorem err_stays (ops : List Op) (t t' : Txn) (h : txnRun ops t = .ok t') (he : t.err = true) : t' = t := by
  induction ops generalizing t with
  | nil => cases h; rfl
  | cons o ops ih =>
    simp only [txnRun] at h
    have : t.call o = .ok t := by unfold Txn.call; rw [if_pos he]
    rw [this] at h
    exact ih t h he

theorem run_append (a b : List Op) (t : Txn) : txnRun (a ++ b) t = (txnRun a t).bind fun t' => txnRun b t' := by
  induction a generalizing t with
  | nil => rfl
  | cons o a ih =>
    simp only [List.cons_append, txnRun]
    cases t.call o with
    | ok t1 => exact ih t1
    | ub => rfl
    | throws => rfl
    | diverges => rfl

/-- The full claim about savepoints. -/
def C37_savepoint_claim : Prop :=
  ∀ (t1 t2 : Txn) (ops1 ops2 : List Op) (s : Name), txnRun ops1 Txn.init = .ok t1 →
    (∀ o ∈ ops2, o ≠ .savepoint s) →
    txnRun (ops1 ++ .savepoint s :: ops2 ++ [.rollback s]) Txn.init = .ok t2 → t2.err = false →
    t2.sdiff = t1.sdiff ∧ t2.mdiff = t1.mdiff

/-- With a name that no savepoint had before: whatever is called after it, rolling back leaves exactly the changes
recorded when it was set. -/
theorem C37_savepoint_partial (t1 t2 : Txn) (ops1 ops2 : List Op) (s : Name) (h1 : txnRun ops1 Txn.init = .ok t1)
    (hfresh : t1.saves.lookup s = none)
    (h2 : txnRun (ops1 ++ .savepoint s :: ops2 ++ [.rollback s]) Txn.init = .ok t2) (he : t2.err = false) :
    t2.sdiff = t1.sdiff ∧ t2.mdiff = t1.mdiff := by
  rw [List.append_assoc, run_append, h1] at h2
  have h2 : txnRun (.savepoint s :: ops2 ++ [.rollback s]) t1 = .ok t2 := h2
  have e1 : t1.err = false := by
    by_contra hc
    have := err_stays _ t1 t2 h2 (by simpa using hc)
    rw [this] at he
    exact hc he
  rw [List.cons_append] at h2
  simp only [txnRun] at h2
  by_cases hact : t1.state = .active
  · have hcall : t1.call (.savepoint s) = .ok { t1 with saves := emplace t1.saves s (t1.mdiff, t1.sdiff) } := by
      unfold Txn.call
      rw [if_neg (by rw [e1]; exact Bool.false_ne_true), if_pos hact]
      rfl
    rw [hcall] at h2
    have h2 : txnRun (ops2 ++ [.rollback s]) { t1 with saves := emplace t1.saves s (t1.mdiff, t1.sdiff) } = .ok t2 := h2
    rw [run_append] at h2
    cases hr : txnRun ops2 { t1 with saves := emplace t1.saves s (t1.mdiff, t1.sdiff) } with
    | ok t3 =>
      rw [hr] at h2
      have h2 : (t3.call (.rollback s)).bind (fun t' => txnRun [] t') = .ok t2 := h2
      have hl := saves_kept ops2 _ t3 hr s (t1.mdiff, t1.sdiff) (by
        show (emplace _ _ _).lookup s = _
        rw [lookup_emplace, hfresh, if_pos rfl])
      unfold Txn.call at h2
      by_cases e3 : t3.err = true
      · rw [if_pos e3] at h2
        cases h2
        rw [e3] at he; cases he
      · rw [if_neg e3] at h2
        by_cases a3 : t3.state = .active
        · rw [if_pos a3] at h2
          simp only [Txn.act, hl] at h2
          cases h2
          exact ⟨rfl, rfl⟩
        · rw [if_neg a3] at h2
          cases h2
          exact absurd he (by simp)
    | ub => rw [hr] at h2; cases h2
    | throws => rw [hr] at h2; cases h2
    | diverges => rw [hr] at h2; cases h2
  · have hcall : t1.call (.savepoint s) = .ok { t1 with err := true } := by
      unfold Txn.call
      rw [if_neg (by rw [e1]; exact Bool.false_ne_true), if_neg hact]
    rw [hcall] at h2
    have := err_stays _ { t1 with err := true } t2 h2 rfl
    rw [this] at he
    cases he

/-- Two savepoints, one of them rolled back to twice. -/
example : ∃ t, txnRun [.delete "x", .savepoint "s", .rename "a" "b", .savepoint "r", .delete "c", .rollback "s", .rollback "r", .rollback "s"]
    Txn.init = .ok t ∧ t.err = false ∧ t.sdiff = { Diff.empty with deleted := ["x"] } := ⟨_, rfl, by decide +kernel, by decide +kernel⟩

/-- A name used again keeps the old state: rolling back discards also what was done before the second savepoint. -/
theorem C37_savepoint_fails : ¬ C37_savepoint_claim := by
  intro h
  have := h (match txnRun [.savepoint "s", .delete "x"] Txn.init with | .ok t => t | _ => Txn.init)
    (match txnRun ([.savepoint "s", .delete "x"] ++ .savepoint "s" :: [.delete "y"] ++ [.rollback "s"]) Txn.init with | .ok t => t | _ => Txn.init)
    [.savepoint "s", .delete "x"] [.delete "y"] "s" (by decide +kernel) (by simp) (by decide +kernel) (by decide +kernel)
  revert this
  decide +kernel

/-! ### the changes are applied as recorded -/

/-- The changes of columns as the transaction records them. -/
def diffRun (ops : List Op) : Res Diff := (txnRun ops Txn.init).bind fun t => .ok t.sdiff

/-- The full claim: the columns after the commit are those the changes give one after the other, and the schema is valid
if it was and names were chosen so. -/
def C37_apply_claim : Prop :=
  ∀ (ops : List Op) (cols : List Col), (∀ o ∈ ops, o.isChange = true) → Valid cols → 0 ∉ cols.map Col.id →
    ∃ D, diffRun ops = .ok D ∧ (D.apply cols).map Col.view = viewRun ops (cols.map Col.view) ∧
      (((viewRun ops (cols.map Col.view)).map View.name).Nodup → schemaError (D.apply cols) = false)

theorem not_claim {ops : List Op} {cols : List Col} {D : Diff} (hD : diffRun ops = .ok D) (h1 : ∀ o ∈ ops, o.isChange = true) (h2 : Valid cols)
    (h3 : 0 ∉ cols.map Col.id) (h4 : (D.apply cols).map Col.view ≠ viewRun ops (cols.map Col.view)) : ¬ C37_apply_claim := by
  intro h
  obtain ⟨D', e, h5, _⟩ := h ops cols h1 h2 h3
  rw [hD] at e
  cases e
  exact h4 h5

theorem valid1 : Valid [col "a" 5 1] := ⟨by decide, by decide, by decide⟩

/-- Adding two columns makes a schema with an error: both have the id 0. -/
theorem C37_two_columns_fails : ¬ C37_apply_claim := by
  intro h
  obtain ⟨D, e, _, h2⟩ := h [.add "b" ⟨7, none⟩ true "", .add "c" ⟨7, none⟩ true ""] [col "a" 5 1] (by decide) valid1 (by decide)
  have hD : diffRun [.add "b" ⟨7, none⟩ true "", .add "c" ⟨7, none⟩ true ""] =
    .ok ⟨[⟨⟨7, some (0, "b")⟩, 0, true, ""⟩, ⟨⟨7, some (0, "c")⟩, 0, true, ""⟩], [], [], []⟩ := by decide +kernel
  rw [hD] at e
  cases e
  have := h2 (by decide +kernel)
  revert this
  decide +kernel

/-- Changing the type of a column twice, or after its documentation, reads through a null pointer. -/
theorem C37_type_twice_fails : diffRun [.updateType "a" ⟨7, none⟩, .updateType "a" ⟨8, none⟩] = .ub ∧
    diffRun [.updateDoc "a" "d", .updateType "a" ⟨8, none⟩] = .ub := by decide +kernel

/-- Changing a column to a type with an extension (a decimal, a list) takes its name away. -/
theorem C37_type_name_fails : ¬ C37_apply_claim :=
  not_claim (ops := [.updateType "a" ⟨9, some (3, "")⟩]) (cols := [col "a" 5 1]) rfl (by decide) valid1 (by decide) (by decide +kernel)

/-- Renamed after another change, then changed again under the new name: the last change is lost. -/
theorem C37_rename_fails : ¬ C37_apply_claim :=
  not_claim (ops := [.updateDoc "a" "x", .rename "a" "b", .updateDoc "b" "y"]) (cols := [col "a" 5 1]) rfl (by decide) valid1 (by decide) (by decide +kernel)

/-- Renamed, then deleted under the new name: the column stays. -/
theorem C37_rename_delete_fails : ¬ C37_apply_claim :=
  not_claim (ops := [.rename "a" "b", .delete "b"]) (cols := [col "a" 5 1]) rfl (by decide) valid1 (by decide) (by decide +kernel)

/-- Added, then deleted: the column is there. -/
theorem C37_add_delete_fails : ¬ C37_apply_claim :=
  not_claim (ops := [.add "b" ⟨7, none⟩ true "", .delete "b"]) (cols := [col "a" 5 1]) rfl (by decide) valid1 (by decide) (by decide +kernel)

/-- A commit that failed with an exception because the namespace was gone, tried again when it is back: success, and
nothing changed. -/
theorem C37_retry_fails :
    (actRun [.op (.delete "a"), .world ⟨false, none⟩, .commit, .world ⟨true, some ⟨[col "a" 5 1], ""⟩⟩, .commit]
      ⟨Scope.begin, ⟨true, some ⟨[col "a" 5 1], ""⟩⟩⟩).bind (fun s => .ok (s.scope.committed, s.scope.err, s.world)) =
    .ok (true, false, ⟨true, some ⟨[col "a" 5 1], ""⟩⟩) := by decide +kernel

/-- What a diff recorded from changes with names in `M` looks like. -/
structure DInv (D : Diff) (M : List Name) : Prop where
  upd : ∀ p ∈ D.updates, p.1 ∈ M ∧ (p.2.n = true → ∃ e, p.2.ty.ext = some e ∧ e.2 ∈ M) ∧ (p.2.t = true → p.2.ty.ext = none)
  ren : ∀ p ∈ D.renames, p.1 ∈ M ∧ p.2 ∈ M
  del : ∀ a ∈ D.deleted, a ∈ M
  add : ∀ c ∈ D.added, c.name ∈ M

theorem lookup_mem {β : Type} {l : List (Name × β)} {a : Name} {b : β} (h : l.lookup a = some b) : (a, b) ∈ l := by
  induction l with
  | nil => cases h
  | cons p l ih =>
    obtain ⟨x, y⟩ := p
    rw [List.lookup_cons] at h
    cases hx : a == x with
    | true =>
      rw [hx] at h
      cases h
      have : a = x := by simpa using hx
      rw [this]
      exact List.mem_cons_self
    | false =>
      rw [hx] at h
      exact List.mem_cons_of_mem _ (ih h)

theorem upd_none {D : Diff} {M : List Name} (h : DInv D M) {a : Name} (ha : a ∉ M) : D.updates.lookup a = none := by
  cases hl : D.updates.lookup a with
  | none => rfl
  | some i => exact absurd (h.upd _ (lookup_mem hl)).1 ha

theorem ren_none {D : Diff} {M : List Name} (h : DInv D M) {a : Name} (ha : a ∉ M) : D.renames.lookup a = none := by
  cases hl : D.renames.lookup a with
  | none => rfl
  | some i => exact absurd (h.ren _ (lookup_mem hl)).1 ha

/-- A column nobody mentions stays. -/
theorem updateCol_other {D : Diff} {M : List Name} (h : DInv D M) (c : Col) (hc : c.name ∉ M) : D.updateCol c = c := by
  unfold Diff.updateCol
  rw [upd_none h hc]
  simp only
  rw [ren_none h hc]

theorem applyInfo_name (i : Info) (c : Col) (M : List Name) (h1 : i.n = true → ∃ e, i.ty.ext = some e ∧ e.2 ∈ M)
    (h2 : i.t = true → i.ty.ext = none) : (applyInfo i c).name = c.name ∨ (applyInfo i c).name ∈ M := by
  unfold applyInfo Col.name
  cases ht : i.t <;> cases hn : i.n <;> simp
  · obtain ⟨e, he, hm⟩ := h1 hn
    rw [he]
    right
    exact hm
  · left
    simp only [Ty.assign, h2 ht]
  · left
    simp only [Ty.assign, h2 ht]

theorem updateCol_name {D : Diff} {M : List Name} (h : DInv D M) (c : Col) : (D.updateCol c).name = c.name ∨ (D.updateCol c).name ∈ M := by
  unfold Diff.updateCol
  cases hl : D.updates.lookup c.name with
  | some i =>
    have := h.upd _ (lookup_mem hl)
    exact applyInfo_name i c M this.2.1 this.2.2
  | none =>
    simp only
    cases hr : D.renames.lookup c.name with
    | none => exact Or.inl rfl
    | some b =>
      simp only
      cases hb : D.updates.lookup b with
      | none => exact Or.inl rfl
      | some i =>
        have := h.upd _ (lookup_mem hb)
        exact applyInfo_name i c M this.2.1 this.2.2

/-- One more entry, for a name that was not mentioned: other columns are not touched by it. -/
theorem updateCol_emplace {D : Diff} {M : List Name} (h : DInv D M) (a : Name) (i : Info) (ha : a ∉ M) (c : Col) (hc : c.name ≠ a) :
    Diff.updateCol { D with updates := emplace D.updates a i } c = D.updateCol c := by
  have hl : ∀ x, x ≠ a → (emplace D.updates a i).lookup x = D.updates.lookup x := by
    intro x hx
    rw [lookup_emplace]
    cases D.updates.lookup x with
    | some y => rfl
    | none => simp only; rw [if_neg hx]
  unfold Diff.updateCol
  simp only
  rw [hl _ hc]
  cases D.updates.lookup c.name with
  | some y => rfl
  | none =>
    simp only
    cases hr : D.renames.lookup c.name with
    | none => rfl
    | some b =>
      simp only
      have : b ∈ M := (h.ren _ (lookup_mem hr)).2
      rw [hl b (fun hb => ha (hb ▸ this))]

theorem updateCol_emplace_self {D : Diff} {M : List Name} (h : DInv D M) (i : Info) (c : Col) (ha : c.name ∉ M) :
    Diff.updateCol { D with updates := emplace D.updates c.name i } c = applyInfo i c := by
  unfold Diff.updateCol
  simp only
  rw [lookup_emplace, upd_none h ha]
  simp

theorem apply_map {D D' : Diff} {cols : List Col} (hdel : D'.deleted = D.deleted) (hadd : D'.added = D.added) (f : View → View)
    (h1 : ∀ c ∈ cols, D.deleted.contains c.name = false → (D'.updateCol c).view = f (D.updateCol c).view)
    (h2 : ∀ c ∈ D.added, c.view = f c.view) : (D'.apply cols).map Col.view = ((D.apply cols).map Col.view).map f := by
  unfold Diff.apply
  rw [hdel, hadd, List.map_append, List.map_append, List.map_append]
  congr 1
  · induction cols with
    | nil => rfl
    | cons c cols ih =>
      have ih := ih (fun x hx => h1 x (List.mem_cons_of_mem _ hx))
      rw [List.filterMap_cons, List.filterMap_cons]
      cases hd : D.deleted.contains c.name
      · simp only [Bool.false_eq_true, if_false, List.map_cons]
        rw [ih, h1 c List.mem_cons_self hd]
      · simp only [if_true]
        exact ih
  · rw [List.map_map]
    apply List.map_congr_left
    intro c hc
    exact h2 c hc

theorem view_named {c : Col} (h : c.ty.ext ≠ none) : ∃ k, c.ty = ⟨c.ty.base, some (k, c.name)⟩ ∧ c.ty.kind = k := by
  cases he : c.ty.ext with
  | none => exact absurd he h
  | some e =>
    refine ⟨e.1, ?_, ?_⟩
    · unfold Col.name
      rw [he]
      cases hc : c.ty with
      | mk b x => rw [hc] at he; simp at he; rw [he]
    · unfold Ty.kind; rw [he]

theorem map_name_setName (vs : List View) (a b : Name) : (vs.map fun v => if v.name = a then { v with name := b } else v).map View.name =
    (vs.map View.name).map fun n => if n = a then b else n := by
  rw [List.map_map, List.map_map]
  apply List.map_congr_left
  intro v _
  show (if v.name = a then { v with name := b } else v).name = if v.name = a then b else v.name
  split <;> rfl

/-- One change with names not mentioned so far. -/
theorem one_change (D : Diff) (M : List Name) (cols : List Col) (h : DInv D M) (o : Op) (hch : o.isChange = true)
    (hfresh : ∀ a ∈ o.mentions, a ∉ M) (hnd : o.mentions.Nodup) (hnew : ∀ a ∈ o.news, a ∉ cols.map Col.name)
    (hplain : ∀ a ty, o = .updateType a ty → ty.ext = none ∧ ∀ c ∈ cols, c.name = a → c.ty.kind = 0)
    (hnamed : ∀ c ∈ cols, c.ty.ext ≠ none) (t : Txn) (ht : t.sdiff = D) :
    ∃ t', t.act o = .ok t' ∧ t'.err = t.err ∧ t'.state = t.state ∧ DInv t'.sdiff (M ++ o.mentions) ∧
      (t'.sdiff.apply cols).map Col.view = viewStep ((D.apply cols).map Col.view) o ∧
      (∀ a ty r d, o = .add a ty r d → t'.sdiff.added = D.added ++ [⟨ty.setAlias a, 0, r, d⟩]) ∧
      (∀ p, (∀ a ty r d, o ≠ .add a ty r d) → p ∈ t'.sdiff.added → p ∈ D.added) := by
  subst ht
  have mono : ∀ {x}, x ∈ M → x ∈ M ++ o.mentions := fun hx => List.mem_append_left _ hx
  have hadd' : ∀ c ∈ t.sdiff.added, ∀ a ∈ o.mentions, c.name ≠ a := by
    intro c hc a ha he
    exact hfresh a ha (he ▸ h.add c hc)
  cases o with
  | add a ty req doc =>
    refine ⟨_, rfl, rfl, rfl, ?_, ?_, ?_, ?_⟩
    · refine ⟨fun p hp => ?_, fun p hp => ⟨mono (h.ren p hp).1, mono (h.ren p hp).2⟩, fun x hx => mono (h.del x hx), fun c hc => ?_⟩
      · obtain ⟨u1, u2, u3⟩ := h.upd p hp
        exact ⟨mono u1, fun hn => (u2 hn).imp fun e he => ⟨he.1, mono he.2⟩, u3⟩
      · have hc : c ∈ t.sdiff.added ++ [⟨ty.setAlias a, 0, req, doc⟩] := hc
        rcases List.mem_append.mp hc with hc | hc
        · exact mono (h.add c hc)
        · have : c = ⟨ty.setAlias a, 0, req, doc⟩ := by simpa using hc
          rw [this]
          exact List.mem_append_right _ (by simp [Op.mentions, Col.name, Ty.setAlias])
    · show (Diff.apply { t.sdiff with added := _ } cols).map Col.view = _
      have : Diff.apply (t.sdiff.addColumn a ty req doc) cols = t.sdiff.apply cols ++ [⟨ty.setAlias a, 0, req, doc⟩] := by
        unfold Diff.apply Diff.addColumn
        rw [← List.append_assoc]
        rfl
      show (Diff.apply (t.sdiff.addColumn a ty req doc) cols).map Col.view = _
      rw [this, List.map_append]
      simp only [viewStep]
      congr 1
    · intro a' ty' r' d' he
      cases he
      rfl
    · intro p hn
      exact absurd rfl (hn a ty req doc)
  | delete a =>
    have ha : a ∉ M := hfresh a (by simp [Op.mentions])
    refine ⟨_, rfl, rfl, rfl, ?_, ?_, (fun _ _ _ _ he => by cases he), fun p _ hp => hp⟩
    · refine ⟨fun p hp => ?_, fun p hp => ⟨mono (h.ren p hp).1, mono (h.ren p hp).2⟩, fun x hx => ?_, fun c hc => mono (h.add c hc)⟩
      · obtain ⟨u1, u2, u3⟩ := h.upd p hp
        exact ⟨mono u1, fun hn => (u2 hn).imp fun e he => ⟨he.1, mono he.2⟩, u3⟩
      · have hx : x ∈ t.sdiff.deleted ++ [a] := hx
        rcases List.mem_append.mp hx with hx | hx
        · exact mono (h.del x hx)
        · have : x = a := by simpa using hx
          rw [this]
          exact List.mem_append_right _ (by simp [Op.mentions])
    · show (Diff.apply (t.sdiff.deleteColumn a) cols).map Col.view = _
      unfold Diff.apply Diff.deleteColumn
      simp only [viewStep]
      rw [List.map_append, List.map_append, List.filter_append]
      congr 1
      · clear hnew hplain hnamed
        induction cols with
        | nil => rfl
        | cons c cols ih =>
          rw [List.filterMap_cons, List.filterMap_cons]
          have hcont : (t.sdiff.deleted ++ [a]).contains c.name = (t.sdiff.deleted.contains c.name || c.name == a) := by
            by_cases hca : c.name = a <;> simp [hca]
          rw [hcont]
          have hupd : Diff.updateCol { t.sdiff with deleted := t.sdiff.deleted ++ [a] } c = t.sdiff.updateCol c := rfl
          cases hd : t.sdiff.deleted.contains c.name
          · by_cases hca : c.name = a
            · have hn : (t.sdiff.updateCol c).name = a := by
                rw [updateCol_other h c (by rw [hca]; exact ha)]; exact hca
              simp only [hca, Bool.false_or, beq_self_eq_true, if_true, Bool.false_eq_true, if_false, List.map_cons]
              rw [ih]
              rw [List.filter_cons]
              simp [Col.view, hn]
            · have hn : (t.sdiff.updateCol c).name ≠ a := by
                rcases updateCol_name h c with hx | hx
                · rw [hx]; exact hca
                · intro he; rw [he] at hx; exact ha hx
              simp only [hca, Bool.false_or, Bool.false_eq_true, if_false, List.map_cons, beq_iff_eq]
              rw [ih, List.filter_cons]
              simp only [Col.view, hn, hupd, ne_eq, not_false_eq_true, decide_true, if_true]
          · simp only [Bool.true_or, if_true]
            exact ih
      · symm
        rw [List.filter_eq_self]
        intro v hv
        obtain ⟨c, hc, rfl⟩ := List.mem_map.mp hv
        simp only [ne_eq, decide_not, Bool.not_eq_true', decide_eq_false_iff_not]
        exact hadd' c hc a (by simp [Op.mentions])
  | rename a b =>
    have ha : a ∉ M := hfresh a (by simp [Op.mentions])
    have hb : b ∉ M := hfresh b (by simp [Op.mentions])
    have hab : a ≠ b := by
      simp only [Op.mentions] at hnd
      intro he; simp [he] at hnd
    have hbc : ∀ c ∈ cols, c.name ≠ b := fun c hc he => hnew b (by simp [Op.news]) (List.mem_map.mpr ⟨c, hc, he⟩)
    let i : Info := ⟨false, true, false, false, Ty.default.setAlias b, false, ""⟩
    have hsd : t.sdiff.renameColumn a b = { t.sdiff with renames := emplace t.sdiff.renames a b, updates := emplace t.sdiff.updates b i } := by
      unfold Diff.renameColumn
      rw [upd_none h ha]
    have hemu : emplace t.sdiff.updates b i = t.sdiff.updates ++ [(b, i)] := by unfold emplace; rw [upd_none h hb]
    have hemr : emplace t.sdiff.renames a b = t.sdiff.renames ++ [(a, b)] := by unfold emplace; rw [ren_none h ha]
    refine ⟨_, rfl, rfl, rfl, ?_, ?_, (fun _ _ _ _ he => by cases he), fun p _ hp => by
      have hp : p ∈ (t.sdiff.renameColumn a b).added := hp
      rw [hsd] at hp; exact hp⟩
    · show DInv (t.sdiff.renameColumn a b) _
      rw [hsd]
      refine ⟨fun p hp => ?_, fun p hp => ?_, fun x hx => mono (h.del x hx), fun c hc => mono (h.add c hc)⟩
      · have hp : p ∈ emplace t.sdiff.updates b i := hp
        rw [hemu] at hp
        rcases List.mem_append.mp hp with hp | hp
        · obtain ⟨u1, u2, u3⟩ := h.upd p hp
          exact ⟨mono u1, fun hn => (u2 hn).imp fun e he => ⟨he.1, mono he.2⟩, u3⟩
        · have : p = (b, i) := by simpa using hp
          rw [this]
          have hbm : b ∈ M ++ Op.mentions (.rename a b) := List.mem_append_right _ (by simp [Op.mentions])
          exact ⟨hbm, fun _ => ⟨(0, b), rfl, hbm⟩, fun ht => by cases ht⟩
      · have hp : p ∈ emplace t.sdiff.renames a b := hp
        rw [hemr] at hp
        rcases List.mem_append.mp hp with hp | hp
        · exact ⟨mono (h.ren p hp).1, mono (h.ren p hp).2⟩
        · have : p = (a, b) := by simpa using hp
          rw [this]
          exact ⟨List.mem_append_right _ (by simp [Op.mentions]), List.mem_append_right _ (by simp [Op.mentions])⟩
    · show (Diff.apply (t.sdiff.renameColumn a b) cols).map Col.view = _
      rw [hsd]
      refine apply_map (D := t.sdiff) (D' := { t.sdiff with renames := emplace t.sdiff.renames a b, updates := emplace t.sdiff.updates b i }) (cols := cols) rfl rfl (fun v => if v.name = a then { v with name := b } else v) ?_ ?_
      · intro c hc hd
        by_cases hca : c.name = a
        · rw [updateCol_other h c (by rw [hca]; exact ha)]
          have : Diff.updateCol { t.sdiff with renames := emplace t.sdiff.renames a b, updates := emplace t.sdiff.updates b i } c = applyInfo i c := by
            unfold Diff.updateCol
            simp only
            rw [lookup_emplace, hca, upd_none h ha]
            simp only [hab, if_false]
            rw [lookup_emplace, ren_none h ha]
            simp only [if_true]
            rw [lookup_emplace, upd_none h hb]
            simp
          rw [this]
          show _ = if c.view.name = a then _ else _
          rw [if_pos (show c.view.name = a from hca)]
          obtain ⟨k, hk1, hk2⟩ := view_named (hnamed c hc)
          simp only [applyInfo, i, Col.view, Col.name, Ty.setAlias, Ty.kind, Ty.default]
          rw [hk1]
          simp
        · have hupd : Diff.updateCol { t.sdiff with renames := emplace t.sdiff.renames a b, updates := emplace t.sdiff.updates b i } c = t.sdiff.updateCol c := by
            rw [← updateCol_emplace h b i hb c (hbc c hc)]
            unfold Diff.updateCol
            simp only
            cases (emplace t.sdiff.updates b i).lookup c.name with
            | some y => rfl
            | none =>
              simp only
              rw [lookup_emplace]
              cases t.sdiff.renames.lookup c.name with
              | some y => rfl
              | none => simp only; rw [if_neg hca]
          rw [hupd]
          have hn : (t.sdiff.updateCol c).name ≠ a := by
            rcases updateCol_name h c with hx | hx
            · rw [hx]; exact hca
            · intro he; rw [he] at hx; exact ha hx
          show _ = if (t.sdiff.updateCol c).view.name = a then _ else _
          rw [if_neg (show (t.sdiff.updateCol c).view.name ≠ a from hn)]
      · intro c hc
        have := hadd' c hc a (by simp [Op.mentions])
        show _ = if c.view.name = a then _ else _
        rw [if_neg (show c.view.name ≠ a from this)]
  | updateType a ty =>
    have ha : a ∉ M := hfresh a (by simp [Op.mentions])
    obtain ⟨hp1, hp2⟩ := hplain a ty rfl
    let i : Info := ⟨true, false, false, false, ty, false, ""⟩
    have hsd : t.sdiff.updateType a ty = .ok { t.sdiff with updates := emplace t.sdiff.updates a i } := by
      unfold Diff.updateType
      rw [upd_none h ha]
    have hemu : emplace t.sdiff.updates a i = t.sdiff.updates ++ [(a, i)] := by unfold emplace; rw [upd_none h ha]
    refine ⟨{ t with sdiff := { t.sdiff with updates := emplace t.sdiff.updates a i } }, by simp only [Txn.act, hsd]; rfl, rfl, rfl, ?_, ?_,
      (fun _ _ _ _ he => by cases he), fun p _ hp => hp⟩
    · refine ⟨fun p hp => ?_, fun p hp => ⟨mono (h.ren p hp).1, mono (h.ren p hp).2⟩, fun x hx => mono (h.del x hx), fun c hc => mono (h.add c hc)⟩
      have hp : p ∈ emplace t.sdiff.updates a i := hp
      rw [hemu] at hp
      rcases List.mem_append.mp hp with hp | hp
      · obtain ⟨u1, u2, u3⟩ := h.upd p hp
        exact ⟨mono u1, fun hn => (u2 hn).imp fun e he => ⟨he.1, mono he.2⟩, u3⟩
      · have : p = (a, i) := by simpa using hp
        rw [this]
        exact ⟨List.mem_append_right _ (by simp [Op.mentions]), fun hn => (by cases hn), fun _ => hp1⟩
    · refine apply_map (D := t.sdiff) (D' := { t.sdiff with updates := emplace t.sdiff.updates a i }) (cols := cols) rfl rfl (fun v => if v.name = a then { v with base := ty.base, kind := ty.kind } else v) ?_ ?_
      · intro c hc hd
        by_cases hca : c.name = a
        · rw [updateCol_other h c (by rw [hca]; exact ha)]
          show Col.view (Diff.updateCol { t.sdiff with updates := emplace t.sdiff.updates a i } c) = _
          subst hca
          rw [updateCol_emplace_self h i c ha]
          show _ = if c.view.name = c.name then _ else _
          rw [if_pos (show c.view.name = c.name from rfl)]
          obtain ⟨k, hk1, hk2⟩ := view_named (hnamed c hc)
          have hk0 := hp2 c hc rfl
          rw [hk2] at hk0
          subst hk0
          simp only [applyInfo, i, Col.view, Col.name, Ty.kind, Ty.assign, hp1]
          rw [hk1]
          simp
        · show Col.view (Diff.updateCol { t.sdiff with updates := emplace t.sdiff.updates a i } c) = _
          rw [updateCol_emplace h a i ha c hca]
          have hn : (t.sdiff.updateCol c).name ≠ a := by
            rcases updateCol_name h c with hx | hx
            · rw [hx]; exact hca
            · intro he; rw [he] at hx; exact ha hx
          show _ = if (t.sdiff.updateCol c).view.name = a then _ else _
          rw [if_neg (show (t.sdiff.updateCol c).view.name ≠ a from hn)]
      · intro c hc
        have := hadd' c hc a (by simp [Op.mentions])
        show _ = if c.view.name = a then _ else _
        rw [if_neg (show c.view.name ≠ a from this)]
  | updateDoc a doc =>
    have ha : a ∉ M := hfresh a (by simp [Op.mentions])
    let i : Info := ⟨false, false, true, false, Ty.default, false, doc⟩
    have hsd : t.sdiff.updateDoc a doc = { t.sdiff with updates := emplace t.sdiff.updates a i } := by
      unfold Diff.updateDoc
      rw [upd_none h ha]
    have hemu : emplace t.sdiff.updates a i = t.sdiff.updates ++ [(a, i)] := by unfold emplace; rw [upd_none h ha]
    refine ⟨{ t with sdiff := { t.sdiff with updates := emplace t.sdiff.updates a i } }, by simp only [Txn.act, hsd], rfl, rfl, ?_, ?_,
      (fun _ _ _ _ he => by cases he), fun p _ hp => hp⟩
    · refine ⟨fun p hp => ?_, fun p hp => ⟨mono (h.ren p hp).1, mono (h.ren p hp).2⟩, fun x hx => mono (h.del x hx), fun c hc => mono (h.add c hc)⟩
      have hp : p ∈ emplace t.sdiff.updates a i := hp
      rw [hemu] at hp
      rcases List.mem_append.mp hp with hp | hp
      · obtain ⟨u1, u2, u3⟩ := h.upd p hp
        exact ⟨mono u1, fun hn => (u2 hn).imp fun e he => ⟨he.1, mono he.2⟩, u3⟩
      · have : p = (a, i) := by simpa using hp
        rw [this]
        exact ⟨List.mem_append_right _ (by simp [Op.mentions]), fun hn => (by cases hn), fun ht => (by cases ht)⟩
    · refine apply_map (D := t.sdiff) (D' := { t.sdiff with updates := emplace t.sdiff.updates a i }) (cols := cols) rfl rfl (fun v => if v.name = a then { v with doc := doc } else v) ?_ ?_
      · intro c hc hd
        by_cases hca : c.name = a
        · rw [updateCol_other h c (by rw [hca]; exact ha)]
          show Col.view (Diff.updateCol { t.sdiff with updates := emplace t.sdiff.updates a i } c) = _
          subst hca
          rw [updateCol_emplace_self h i c ha]
          show _ = if c.view.name = c.name then _ else _
          rw [if_pos (show c.view.name = c.name from rfl)]
          simp [applyInfo, i, Col.view, Col.name]
        · show Col.view (Diff.updateCol { t.sdiff with updates := emplace t.sdiff.updates a i } c) = _
          rw [updateCol_emplace h a i ha c hca]
          have hn : (t.sdiff.updateCol c).name ≠ a := by
            rcases updateCol_name h c with hx | hx
            · rw [hx]; exact hca
            · intro he; rw [he] at hx; exact ha hx
          show _ = if (t.sdiff.updateCol c).view.name = a then _ else _
          rw [if_neg (show (t.sdiff.updateCol c).view.name ≠ a from hn)]
      · intro c hc
        have := hadd' c hc a (by simp [Op.mentions])
        show _ = if c.view.name = a then _ else _
        rw [if_neg (show c.view.name ≠ a from this)]
  | setRequired a req =>
    have ha : a ∉ M := hfresh a (by simp [Op.mentions])
    let i : Info := ⟨false, false, false, true, Ty.default, req, ""⟩
    have hsd : t.sdiff.setRequired a req = { t.sdiff with updates := emplace t.sdiff.updates a i } := by
      unfold Diff.setRequired
      rw [upd_none h ha]
    have hemu : emplace t.sdiff.updates a i = t.sdiff.updates ++ [(a, i)] := by unfold emplace; rw [upd_none h ha]
    refine ⟨{ t with sdiff := { t.sdiff with updates := emplace t.sdiff.updates a i } }, by simp only [Txn.act, hsd], rfl, rfl, ?_, ?_,
      (fun _ _ _ _ he => by cases he), fun p _ hp => hp⟩
    · refine ⟨fun p hp => ?_, fun p hp => ⟨mono (h.ren p hp).1, mono (h.ren p hp).2⟩, fun x hx => mono (h.del x hx), fun c hc => mono (h.add c hc)⟩
      have hp : p ∈ emplace t.sdiff.updates a i := hp
      rw [hemu] at hp
      rcases List.mem_append.mp hp with hp | hp
      · obtain ⟨u1, u2, u3⟩ := h.upd p hp
        exact ⟨mono u1, fun hn => (u2 hn).imp fun e he => ⟨he.1, mono he.2⟩, u3⟩
      · have : p = (a, i) := by simpa using hp
        rw [this]
        exact ⟨List.mem_append_right _ (by simp [Op.mentions]), fun hn => (by cases hn), fun ht => (by cases ht)⟩
    · refine apply_map (D := t.sdiff) (D' := { t.sdiff with updates := emplace t.sdiff.updates a i }) (cols := cols) rfl rfl (fun v => if v.name = a then { v with req := req } else v) ?_ ?_
      · intro c hc hd
        by_cases hca : c.name = a
        · rw [updateCol_other h c (by rw [hca]; exact ha)]
          show Col.view (Diff.updateCol { t.sdiff with updates := emplace t.sdiff.updates a i } c) = _
          subst hca
          rw [updateCol_emplace_self h i c ha]
          show _ = if c.view.name = c.name then _ else _
          rw [if_pos (show c.view.name = c.name from rfl)]
          simp [applyInfo, i, Col.view, Col.name]
        · show Col.view (Diff.updateCol { t.sdiff with updates := emplace t.sdiff.updates a i } c) = _
          rw [updateCol_emplace h a i ha c hca]
          have hn : (t.sdiff.updateCol c).name ≠ a := by
            rcases updateCol_name h c with hx | hx
            · rw [hx]; exact hca
            · intro he; rw [he] at hx; exact ha hx
          show _ = if (t.sdiff.updateCol c).view.name = a then _ else _
          rw [if_neg (show (t.sdiff.updateCol c).view.name ≠ a from hn)]
      · intro c hc
        have := hadd' c hc a (by simp [Op.mentions])
        show _ = if c.view.name = a then _ else _
        rw [if_neg (show c.view.name ≠ a from this)]
  | describe _ => cases hch
  | savepoint _ => cases hch
  | rollback _ => cases hch

/-- Number of added columns. -/
def adds (ops : List Op) : Nat := (ops.filter fun o => match o with | .add _ _ _ _ => true | _ => false).length

theorem tame_run (ops : List Op) (cols : List Col) (hv : ∀ c ∈ cols, c.ty.ext ≠ none) : Tame ops cols →
    ∃ t, txnRun ops Txn.init = .ok t ∧ t.err = false ∧ t.state = .active ∧ DInv t.sdiff (mentioned ops) ∧
      (t.sdiff.apply cols).map Col.view = viewRun ops (cols.map Col.view) ∧
      t.sdiff.added.length = adds ops ∧ ∀ c ∈ t.sdiff.added, c.id = 0 := by
  induction ops using List.reverseRecOn with
  | nil =>
    intro _
    refine ⟨Txn.init, rfl, rfl, rfl, ⟨?_, ?_, ?_, ?_⟩, ?_, rfl, ?_⟩
    · intro p hp; cases hp
    · intro p hp; cases hp
    · intro p hp; cases hp
    · intro p hp; cases hp
    on_goal 2 => intro c hc; cases hc
    show (Diff.apply Diff.empty cols).map Col.view = cols.map Col.view
    unfold Diff.apply
    simp [Diff.empty, Diff.updateCol]
  | append_singleton ops o ih =>
    intro ht
    have hm : mentioned (ops ++ [o]) = mentioned ops ++ o.mentions := by unfold mentioned; simp
    have hnd := ht.once
    rw [hm, List.nodup_append] at hnd
    have ht' : Tame ops cols := ⟨fun x hx => ht.change x (List.mem_append_left _ hx), hnd.1, fun x hx => ht.fresh x (List.mem_append_left _ hx),
      fun a ty hx => ht.plain a ty (List.mem_append_left _ hx)⟩
    obtain ⟨t, h1, h2, h3, h4, h5, h6, h7⟩ := ih ht'
    have ho : o ∈ ops ++ [o] := by simp
    obtain ⟨t', g1, g2, g3, g4, g5, g6, g7⟩ := one_change t.sdiff (mentioned ops) cols h4 o (ht.change o ho)
      (fun a ha hM => (hnd.2.2 a hM a ha) rfl) hnd.2.1 (ht.fresh o ho) (fun a ty he => ht.plain a ty (he ▸ ho)) hv t rfl
    refine ⟨t', ?_, by rw [g2, h2], by rw [g3, h3], by rw [hm]; exact g4, ?_, ?_⟩
    · rw [run_append, h1]
      show (t.call o).bind (fun t' => txnRun [] t') = .ok t'
      have : t.call o = .ok t' := by
        unfold Txn.call
        rw [if_neg (by rw [h2]; exact Bool.false_ne_true), if_pos h3, g1]
      rw [this]
      rfl
    · rw [g5, h5]
      unfold viewRun
      rw [List.foldl_append]
      rfl
    · unfold adds at h6 ⊢
      rw [List.filter_append, List.length_append, ← h6]
      cases o with
      | add a ty r d =>
        rw [g6 a ty r d rfl]
        refine ⟨by simp, ?_⟩
        intro c hc
        rcases List.mem_append.mp hc with hc | hc
        · exact h7 c hc
        · have : c = ⟨ty.setAlias a, 0, r, d⟩ := by simpa using hc
          rw [this]
      | rename a b =>
        have : t'.sdiff.added = t.sdiff.added := by
          simp only [Txn.act] at g1
          cases g1
          simp only [Diff.renameColumn]
          split <;> rfl
        rw [this]
        exact ⟨by simp, h7⟩
      | updateType a ty =>
        have : t'.sdiff.added = t.sdiff.added := by
          simp only [Txn.act, Diff.updateType] at g1
          split at g1
          · split at g1 <;> cases g1
            rfl
          · cases g1; rfl
        rw [this]
        exact ⟨by simp, h7⟩
      | updateDoc a d =>
        have : t'.sdiff.added = t.sdiff.added := by
          simp only [Txn.act, Diff.updateDoc] at g1
          cases g1
          simp only
          split <;> rfl
        rw [this]
        exact ⟨by simp, h7⟩
      | setRequired a d =>
        have : t'.sdiff.added = t.sdiff.added := by
          simp only [Txn.act, Diff.setRequired] at g1
          cases g1
          simp only
          split <;> rfl
        rw [this]
        exact ⟨by simp, h7⟩
      | delete a =>
        have : t'.sdiff.added = t.sdiff.added := by
          simp only [Txn.act] at g1
          cases g1
          rfl
        rw [this]
        exact ⟨by simp, h7⟩
      | describe _ => exact absurd (ht.change _ ho) (by simp [Op.isChange])
      | savepoint _ => exact absurd (ht.change _ ho) (by simp [Op.isChange])
      | rollback _ => exact absurd (ht.change _ ho) (by simp [Op.isChange])

theorem updateCol_id (D : Diff) (c : Col) : (D.updateCol c).id = c.id := by
  unfold Diff.updateCol
  split
  · rfl
  · split
    · split <;> rfl
    · rfl

theorem apply_ids (D : Diff) (cols : List Col) :
    ((D.apply cols).map Col.id).Sublist (cols.map Col.id ++ D.added.map Col.id) := by
  unfold Diff.apply
  rw [List.map_append]
  refine List.Sublist.append ?_ (List.Sublist.refl _)
  induction cols with
  | nil => exact List.Sublist.refl _
  | cons c cols ih =>
    rw [List.filterMap_cons]
    cases D.deleted.contains c.name
    · simp only [Bool.false_eq_true, if_false, List.map_cons, updateCol_id]
      exact ih.cons_cons _
    · simp only [if_true, List.map_cons]
      exact ih.cons _

/-- Changes of different columns: recorded without undefined behaviour, applied exactly, and with at most one added
column the schema is valid. -/
theorem C37_apply_partial (ops : List Op) (cols : List Col) (hv : Valid cols) (h0 : 0 ∉ cols.map Col.id) (ht : Tame ops cols) :
    ∃ D, diffRun ops = .ok D ∧ (D.apply cols).map Col.view = viewRun ops (cols.map Col.view) ∧
      (adds ops ≤ 1 → ((viewRun ops (cols.map Col.view)).map View.name).Nodup → schemaError (D.apply cols) = false) := by
  obtain ⟨t, h1, _, _, _, h5, h6, h7⟩ := tame_run ops cols hv.named ht
  refine ⟨t.sdiff, ?_, h5, ?_⟩
  · unfold diffRun; rw [h1]; rfl
  · intro ha hn
    unfold schemaError
    have e1 : ((t.sdiff.apply cols).map Col.name).Nodup := by
      rw [← h5, List.map_map] at hn
      exact hn
    have e2 : ((t.sdiff.apply cols).map Col.id).Nodup := by
      refine (List.Nodup.sublist (apply_ids t.sdiff cols) ?_)
      rw [List.nodup_append]
      refine ⟨hv.ids, ?_, ?_⟩
      · match hx : t.sdiff.added with
        | [] => simp
        | [_] => simp
        | _ :: _ :: _ => rw [hx] at h6; simp at h6; omega
      · intro x hx y hy he
        obtain ⟨c, hc, rfl⟩ := List.mem_map.mp hy
        rw [he, h7 c hc] at hx
        exact h0 hx
    rw [decide_eq_true e1, decide_eq_true e2]
    rfl

/-- Five columns, each changed differently. -/
def sampleOps : List Op := [.rename "a" "z", .updateType "b" ⟨8, none⟩, .delete "c", .add "n" ⟨9, some (2, "q")⟩ true "doc", .updateDoc "d" "x", .setRequired "e" false]
def sampleCols : List Col := [col "a" 5 1, col "b" 5 2, col "c" 5 3, col "d" 5 4, col "e" 5 5]

example : Valid sampleCols ∧ 0 ∉ sampleCols.map Col.id ∧ Tame sampleOps sampleCols ∧ adds sampleOps ≤ 1 ∧
    ((viewRun sampleOps (sampleCols.map Col.view)).map View.name) = ["z", "b", "d", "e", "n"] := by
  refine ⟨⟨by decide, by decide, by decide⟩, by decide, ⟨by decide, by decide, by decide, ?_⟩, by decide, by decide +kernel⟩
  intro a ty h
  simp [sampleOps] at h
  obtain ⟨rfl, rfl⟩ := h
  exact ⟨rfl, by decide⟩

end Verif.SchemaTxn
