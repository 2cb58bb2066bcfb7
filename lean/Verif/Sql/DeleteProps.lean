import Verif.Sql.JoinProps
/-!
C57: DELETE in SQL.
-/
namespace Verif.Sql

open Verif.DocVal Verif.Query Verif.Num Verif.LogVal Verif.PhysKey

/-- C57 in full: DELETE removes and reports the documents for which the condition is true, with USING for some document of
the other collection; without WHERE and USING, all. -/
def C57_claim : Prop := ∀ (rx : Bytes → Bytes → Res Bool) (tl : Bytes) (c : Option Cond) (other : Option (List Doc)) (store : List Doc), Sorted store →
  store.length < 2 ^ 31 → (∀ o, other = some o → o.length < 2 ^ 31) → (∀ s p, ∃ b, rx s p = .ok b) → (∀ x, c = some x → x.logical) →
  ∃ store' ids, runDelete rx c other store = .ok (store', some ids) ∧ store' = store.filter (fun d => decide (d.id ∉ ids)) ∧
    ∀ d ∈ store, d.id ∈ ids ↔ match c, other with
      | none, none => True
      | none, some o => o ≠ []
      | some x, none => Selects rx x d
      | some x, some o => ∃ e ∈ o, Joins rx tl x d.fields e.fields

/-- DELETE without USING removes exactly the documents for which the condition is true, and reports them; without WHERE all. -/
theorem C57_delete_partial (rx : Bytes → Bytes → Res Bool) (c : Option Cond) (store : List Doc) (hs : Sorted store) (hn : store.length < 2 ^ 31)
    (hc : Clear rx store c) :
    ∃ store' ids, runDelete rx c none store = .ok (store', some ids) ∧ ids = (selected rx store c).map Doc.id ∧
      store' = store.filter fun d => decide (d.id ∉ ids) := by
  cases c with
  | none =>
    have hd : Defined (pred ⟨fun _ => none, rx⟩ (.leaf .allTrue)) store := fun d _ => ⟨true, rfl⟩
    obtain ⟨s', ids, h1, h2, h3, -⟩ := C18_delete_partial (-1) _ store hs hd hn (Or.inl rfl)
    refine ⟨s', ids, h1, ?_, h3⟩
    have ha : accepted (pred ⟨fun _ => none, rx⟩ (.leaf .allTrue)) store = store := by
      unfold accepted
      exact List.filter_eq_self.mpr fun d _ => rfl
    rw [h2, ha]
    rfl
  | some c =>
    obtain ⟨f, ext, h1, -, h3⟩ := clear_exact hc
    obtain ⟨hd, ha, -⟩ := exact_scan rx c store [] hn h3
    obtain ⟨s', ids, k1, k2, k3, -⟩ := C18_delete_partial (-1) _ store hs hd hn (Or.inl rfl)
    refine ⟨s', ids, ?_, ?_, k3⟩
    · show (tr c []).bind _ = _
      rw [h1]
      exact k1
    · rw [k2, ha]
      rfl

/-- DELETE with USING and WHERE removes exactly the documents with a partner, if the condition has the columns of the collection on
the left. -/
theorem C57_using_partial (rx : Bytes → Bytes → Res Bool) (tl tr' : Bytes) (c : Cond) (store other : List Doc) (hne : tl ≠ tr') (hs : Sorted store)
    (hn : store.length < 2 ^ 31) (ho : other.length < 2 ^ 31) (hp : c.sided tl tr') (hc : c.consts ≤ 2 ^ 16)
    (hr : ∀ l ∈ store, ∀ r ∈ other, c.ready rx (pairOf tl l.fields r.fields)) :
    ∃ store' ids, runDelete rx (some c) (some other) store = .ok (store', some ids) ∧
      ids = (store.filter fun l => other.any fun r => decide (Joins rx tl c l.fields r.fields)).map Doc.id ∧
      store' = store.filter fun d => decide (d.id ∉ ids) := by
  obtain ⟨f, ext, h1⟩ := tr_sided tl tr' c hp []
  have hp2 : ∀ l ∈ store, ∀ r ∈ other, ∃ b, pred2 ⟨paramOf ([] ++ ext), rx⟩ f l r = .ok b ∧ (b = true ↔ Joins rx tl c l.fields r.fields) := by
    intro l hl r hrr
    obtain ⟨g, e', k1, -, -, k4⟩ := tr_sound true (fun ps => checkLeaf ⟨paramOf ps, rx⟩ (asDoc l.fields) (some (asDoc r.fields)))
      (PairOp rx tl tr' l.fields r.fields) (fun o x y => o.apply rx (x.value (pairOf tl l.fields r.fields) (asDoc l.fields))
        (y.value (pairOf tl l.fields r.fields) (asDoc l.fields)))
      (fun o x y ps => pair_op rx tl tr' hne _ _ o x y ps) c [] (good_pair rx tl tr' _ _ c hp (hr l hl r hrr)) (by simpa using hc)
    obtain ⟨rfl, rfl⟩ := tr_det h1 k1
    obtain ⟨b, hb, hrel⟩ := k4 _ (List.prefix_refl _)
    rw [Rel, if_pos rfl, ← truth_eq] at hrel
    refine ⟨b, ?_, ?_⟩
    · have e : checkLeaf ⟨paramOf ([] ++ ext), rx⟩ (asDoc l.fields) (some (asDoc r.fields)) = checkLeaf ⟨paramOf ([] ++ ext), rx⟩ l (some r) := by
        funext a
        rcases a with ⟨c, k, n | k'⟩ | ⟨k, n | k'⟩ | _ | _ <;> rfl
      unfold pred2
      rw [← e]
      exact hb
    · unfold Joins
      rw [hrel, Option.some.injEq]
  obtain ⟨s', ids, k1, k2, k3⟩ := C18_using_partial (pred2 ⟨paramOf ([] ++ ext), rx⟩ f) store other hs
    (fun l hl r hrr => by obtain ⟨b, hb, -⟩ := hp2 l hl r hrr; exact ⟨b, hb⟩) hn ho
  refine ⟨s', ids, ?_, ?_, k3⟩
  · show (tr c []).bind _ = _
    rw [h1]
    exact k1
  · rw [k2]
    congr 1
    apply List.filter_congr
    intro l hl
    rw [Bool.eq_iff_iff, List.any_eq_true, List.any_eq_true]
    constructor
    · rintro ⟨r, hrr, h⟩
      obtain ⟨b, hb, hj⟩ := hp2 l hl r hrr
      rw [hb, decide_eq_true_iff, Res.ok.injEq] at h
      exact ⟨r, hrr, decide_eq_true (hj.mp h)⟩
    · rintro ⟨r, hrr, h⟩
      obtain ⟨b, hb, hj⟩ := hp2 l hl r hrr
      refine ⟨r, hrr, ?_⟩
      rw [hb, decide_eq_true_iff, Res.ok.injEq]
      exact hj.mpr (of_decide_eq_true h)

/-- `C57_delete_partial` applies. -/
example : ∃ store' ids, runDelete exRx (some exC) none exS = .ok (store', some ids) ∧ ids = [3, 4] ∧ store' = [exD 1 1 [121], exD 2 3 [120]] := by
  obtain ⟨s, i, h1, h2, h3⟩ := C57_delete_partial exRx (some exC) exS (by unfold Sorted exS; simp [exD]) (by decide)
    ⟨by decide, Or.inl ⟨exC_plain, exS_ready⟩⟩
  have e : i = [3, 4] := by rw [h2]; decide +kernel
  subst e
  refine ⟨s, _, h1, rfl, ?_⟩
  rw [h3]
  decide +kernel

/-- `C57_using_partial` applies: `DELETE FROM l USING r WHERE l.a = r.b AND l.a > 1`. -/
example : ∃ store' ids, runDelete exRx (some exOn) (some [exN1 3 exB 2, exN1 4 exB 1]) [exN1 1 exA 1, exN1 2 exA 2] = .ok (store', some ids) ∧
    ids = [2] ∧ store' = [exN1 1 exA 1] := by
  obtain ⟨s, i, h1, h2, h3⟩ := C57_using_partial exRx exL exR exOn [exN1 1 exA 1, exN1 2 exA 2] [exN1 3 exB 2, exN1 4 exB 1] (by decide)
    (by unfold Sorted; simp [exN1]) (by decide) (by decide) ⟨⟨rfl, rfl⟩, rfl, nofun⟩ (by decide) (by
      have one : ∀ i j m n, ITy.i64.fits m → ITy.i64.fits n → exOn.ready exRx (pairOf exL (exN1 i exA m).fields (exN1 j exB n).fields) :=
        fun i j m n hm hn => ⟨⟨.int .i64 m, rfl, .int .i64 n, rfl, i64_akin m n hm hn⟩, ⟨.int .i64 m, rfl, i64_akin m 1 hm (by decide)⟩⟩
      intro l hl r hr
      simp only [List.mem_cons, List.not_mem_nil, or_false] at hl hr
      rcases hl with rfl | rfl <;> rcases hr with rfl | rfl <;> exact one _ _ _ _ (by decide) (by decide))
  have e : i = [2] := by rw [h2]; decide +kernel
  subst e
  refine ⟨s, _, h1, rfl, ?_⟩
  rw [h3]
  decide +kernel

/-- Without WHERE, USING is not looked at: `DELETE FROM l USING r` removes every document although `r` is empty. -/
theorem C57_using_fails : runDelete exRx none (some []) [exN1 1 exA 1] = .ok ([], some [1]) ∧ ¬ C57_claim := by
  have e : runDelete exRx none (some []) [exN1 1 exA 1] = .ok ([], some [1]) := by decide +kernel
  refine ⟨e, fun hc => ?_⟩
  obtain ⟨s, i, h1, -, h3⟩ := hc exRx exL none (some []) [exN1 1 exA 1] (by unfold Sorted; simp) (by decide) (by simp) exRx_total (by simp)
  rw [e] at h1
  cases h1
  exact absurd rfl ((h3 (exN1 1 exA 1) List.mem_cons_self).mp List.mem_cons_self)

/-- `DELETE FROM t WHERE 5 < a` removes the document with 3 and keeps that with 7. -/
theorem C57_reversed_fails : runDelete exRx (some (.op (.cmp .lt) (.lit (.int 5)) (.col none exA))) none [exN1 1 exA 3, exN1 2 exA 7] =
    .ok ([exN1 2 exA 7], some [1]) ∧ ¬ C57_claim := by
  have e : runDelete exRx (some (.op (.cmp .lt) (.lit (.int 5)) (.col none exA))) none [exN1 1 exA 3, exN1 2 exA 7] =
      .ok ([exN1 2 exA 7], some [1]) := by decide +kernel
  refine ⟨e, fun hc => ?_⟩
  obtain ⟨s, i, h1, -, h3⟩ := hc exRx exL (some (.op (.cmp .lt) (.lit (.int 5)) (.col none exA))) none [exN1 1 exA 3, exN1 2 exA 7]
    (by unfold Sorted; simp [exN1]) (by decide) (by simp) exRx_total (by simp [Cond.logical])
  rw [e] at h1
  cases h1
  have := (h3 (exN1 1 exA 3) (by simp)).mp (by simp [exN1])
  revert this
  decide +kernel

/-- `DELETE FROM t WHERE a > 2` removes the documents without `a`. -/
theorem C57_missing_fails : runDelete exRx (some (.op (.cmp .gt) (.col none exA) (.lit (.int 2)))) none [exN1 1 exB 1, exN1 2 exA 1] =
    .ok ([exN1 2 exA 1], some [1]) ∧ ¬ C57_claim := by
  have e : runDelete exRx (some (.op (.cmp .gt) (.col none exA) (.lit (.int 2)))) none [exN1 1 exB 1, exN1 2 exA 1] =
      .ok ([exN1 2 exA 1], some [1]) := by decide +kernel
  refine ⟨e, fun hc => ?_⟩
  obtain ⟨s, i, h1, -, h3⟩ := hc exRx exL (some (.op (.cmp .gt) (.col none exA) (.lit (.int 2)))) none [exN1 1 exB 1, exN1 2 exA 1]
    (by unfold Sorted; simp [exN1]) (by decide) (by simp) exRx_total (by simp [Cond.logical])
  rw [e] at h1
  cases h1
  have := (h3 (exN1 1 exB 1) (by simp)).mp (by simp [exN1])
  revert this
  decide +kernel

end Verif.Sql
