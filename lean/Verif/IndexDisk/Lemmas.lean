import Verif.IndexDisk.Spec
import Verif.BTree.History
/-!
Helper lemmas for C16.
-/
namespace Verif.IndexDisk
open Verif.BTree
set_option linter.unusedSectionVars false
variable {K Id : Type} [LinearOrder K] [BoundedOrder K] [DecidableEq Id]

/-- The entries stored for a set of pairs. -/
def ent (c : Codec K Id) (P : List (K × Id)) : List (K × Bytes) := P.map fun p => (p.1, c.pack p.1 p.2)

theorem ent_keys (c : Codec K Id) (P : List (K × Id)) : (ent c P).map Prod.fst = P.map Prod.fst := by
  unfold ent
  rw [List.map_map]
  rfl

theorem ent_mem {c : Codec K Id} (hg : c.Good) {P : List (K × Id)} {k : K} {d : Id} : (k, c.pack k d) ∈ ent c P ↔ (k, d) ∈ P := by
  unfold ent
  constructor
  · intro h
    obtain ⟨p, hp, hq⟩ := List.mem_map.mp h
    obtain ⟨h1, h2⟩ := Prod.mk.inj hq
    have h3 : p.2 = d := by rw [← hg.id p.1 p.2, h2, hg.id]
    have : p = (k, d) := Prod.ext h1 h3
    rw [← this]; exact hp
  · intro h
    exact List.mem_map.mpr ⟨(k, d), h, rfl⟩

theorem ent_filter (c : Codec K Id) (P : List (K × Id)) (q : K → Bool) :
    (ent c P).filter (fun e => q e.1) = ent c (P.filter fun p => q p.1) := by
  unfold ent
  rw [List.filter_map]
  rfl

theorem ent_ids {c : Codec K Id} (hg : c.Good) (P : List (K × Id)) : (ent c P).map (fun e => c.idOf e.2) = P.map Prod.snd := by
  unfold ent
  rw [List.map_map]
  apply List.map_congr_left
  intro p _
  exact hg.id _ _

theorem findFrom_ok (c : Codec K Id) (t : BTree.Tree K) (k : K) (l : List Bytes) : ∀ n i, i + n = l.length →
    (∀ j < l.length, ∃ x, getItem t k j = .ok (some x) ∧ l[j]? = some x) →
    findFrom c t k n i = .ok ((l.drop i).map c.idOf) := by
  intro n
  induction n with
  | zero =>
    intro i hi _
    rw [List.drop_of_length_le (by omega)]
    rfl
  | succ n ih =>
    intro i hi h
    obtain ⟨x, h1, h2⟩ := h i (by omega)
    have hl : i < l.length := by omega
    have hx : l[i] = x := by
      rw [List.getElem?_eq_getElem hl] at h2
      exact Option.some.inj h2
    unfold findFrom
    rw [h1]
    show (findFrom c t k n (i + 1)).bind _ = _
    rw [ih (i + 1) (by omega) h, List.drop_eq_getElem_cons hl, List.map_cons, hx]
    rfl

theorem find_answers {c : Codec K Id} (hg : c.Good) {t : BTree.Tree K} {P : List (K × Id)} (h : Answers t (ent c P)) (k : K) :
    ∃ l, find c t k = .ok l ∧ l.Perm (rows P .eq k) := by
  obtain ⟨l, h1, h2⟩ := h.getItem k
  have hlen : ((ent c P).filter (·.1 = k)).length = l.length := by rw [h2.length_eq, List.length_map]
  refine ⟨l.map c.idOf, ?_, ?_⟩
  · unfold find
    rw [h.itemCount, hlen]
    show findFrom c t k l.length 0 = _
    rw [findFrom_ok c t k l l.length 0 (by omega) (by rw [← hlen]; exact h1)]
    rfl
  · refine (h2.map c.idOf).trans ?_
    rw [List.map_map]
    have := ent_filter c P (fun a => decide (a = k))
    rw [this]
    have h4 := ent_ids hg (P.filter fun p => decide (p.1 = k))
    show ((ent c (P.filter fun p => decide (p.1 = k))).map (fun e => c.idOf e.2)).Perm _
    rw [h4]
    exact List.Perm.refl _

theorem lower_answers {c : Codec K Id} (hg : c.Good) {t : BTree.Tree K} {P : List (K × Id)} (h : Answers t (ent c P)) (hP : P.length ≤ NOLIMIT) (k : K) :
    ∃ l, lowerBound c t k = .ok l ∧ l.Perm (rows P .lt k) := by
  obtain ⟨L, h1, h2, h3⟩ := h.scans
  refine ⟨_, by unfold lowerBound; rw [((h3 _).2 ⊥ k NOLIMIT).1]; rfl, ?_⟩
  rw [List.take_of_length_le (le_trans (List.length_filter_le _ _) (by
    rw [h1.length_eq]; unfold ent; rw [List.length_map]; exact hP))]
  have hq : (L.filter fun e => decide (⊥ ≤ e.1) && decide (e.1 ≤ k) && decide (e.1 ≠ k)) = L.filter fun e => decide (e.1 < k) := by
    apply List.filter_congr
    intro e _
    rw [Bool.eq_iff_iff]
    simp only [bot_le, decide_true, Bool.true_and, Bool.and_eq_true, decide_eq_true_eq]
    exact lt_iff_le_and_ne.symm
  rw [hq]
  refine ((h1.filter _).map _).trans ?_
  rw [ent_filter c P (fun a => decide (a < k)), ent_ids hg]
  exact List.Perm.refl _

theorem upper_answers {c : Codec K Id} (hg : c.Good) {t : BTree.Tree K} {P : List (K × Id)} (h : Answers t (ent c P)) (hP : P.length ≤ NOLIMIT) (k : K) :
    ∃ l, upperBound c t k = .ok l ∧ l.Perm (rows P .gt k) := by
  obtain ⟨L, h1, h2, h3⟩ := h.scans
  refine ⟨_, by unfold upperBound; rw [((h3 _).2 k ⊤ NOLIMIT).2]; rfl, ?_⟩
  rw [List.take_of_length_le (le_trans (List.length_filter_le _ _) (by
    rw [List.length_reverse, h1.length_eq]; unfold ent; rw [List.length_map]; exact hP))]
  have hq : (L.reverse.filter fun e => decide (k ≤ e.1) && decide (e.1 ≤ ⊤) && decide (e.1 ≠ k)) = L.reverse.filter fun e => decide (k < e.1) := by
    apply List.filter_congr
    intro e _
    rw [Bool.eq_iff_iff]
    simp only [le_top, decide_true, Bool.and_true, Bool.and_eq_true, decide_eq_true_eq]
    rw [lt_iff_le_and_ne, ne_comm]
  rw [hq]
  refine (((L.reverse_perm.trans h1).filter _).map _).trans ?_
  rw [ent_filter c P (fun a => decide (k < a)), ent_ids hg]
  exact List.Perm.refl _

theorem rows_or {P : List (K × Id)} {a b r : Cmp} {k : K} (h : ∀ x : K, r.holds x k ↔ a.holds x k ∨ b.holds x k)
    (hd : ∀ x : K, ¬ (a.holds x k ∧ b.holds x k)) : (rows P a k ++ rows P b k).Perm (rows P r k) := by
  unfold rows
  rw [← List.map_append]
  apply List.Perm.map
  induction P with
  | nil => exact List.Perm.nil
  | cons p P ih =>
    by_cases ha : a.holds p.1 k
    · have hb : ¬ b.holds p.1 k := fun hb => hd _ ⟨ha, hb⟩
      have hr : r.holds p.1 k := (h _).mpr (Or.inl ha)
      simp only [List.filter_cons, ha, hb, hr, decide_true, decide_false, if_true, Bool.false_eq_true, if_false]
      exact ih.cons _
    · by_cases hb : b.holds p.1 k
      · have hr : r.holds p.1 k := (h _).mpr (Or.inr hb)
        simp only [List.filter_cons, ha, hb, hr, decide_true, decide_false, if_true, Bool.false_eq_true, if_false]
        exact List.perm_middle.trans (ih.cons _)
      · have hr : ¬ r.holds p.1 k := fun hc => ((h _).mp hc).elim ha hb
        simp only [List.filter_cons, ha, hb, hr, decide_false, Bool.false_eq_true, if_false]
        exact ih

theorem query_answers {c : Codec K Id} (hg : c.Good) {t : BTree.Tree K} {P : List (K × Id)} (h : Answers t (ent c P)) (hP : P.length ≤ NOLIMIT)
    (k : K) (cmp : Cmp) : ∃ l, query c t k cmp = .ok l ∧ l.Perm (rows P cmp k) := by
  obtain ⟨f, f1, f2⟩ := find_answers hg h k
  obtain ⟨l, l1, l2⟩ := lower_answers hg h hP k
  obtain ⟨u, u1, u2⟩ := upper_answers hg h hP k
  cases cmp with
  | eq => exact ⟨f, f1, f2⟩
  | gt => exact ⟨u, u1, u2⟩
  | lt => exact ⟨l, l1, l2⟩
  | ne =>
    refine ⟨l ++ u, by unfold query both; rw [l1, u1]; rfl, (l2.append u2).trans (rows_or (fun x => ?_) (fun x => ?_))⟩
    · exact lt_or_lt_iff_ne.symm
    · exact fun hc => absurd hc.1 (not_lt.mpr (le_of_lt hc.2))
  | gte =>
    refine ⟨f ++ u, by unfold query both; rw [f1, u1]; rfl, (f2.append u2).trans (rows_or (fun x => ?_) (fun x => ?_))⟩
    · show k ≤ x ↔ x = k ∨ k < x
      rw [le_iff_eq_or_lt, eq_comm]
    · rintro ⟨hc, hd⟩
      have hc : x = k := hc
      have hd : k < x := hd
      exact absurd hd (by rw [hc]; exact lt_irrefl _)
  | lte =>
    refine ⟨l ++ f, by unfold query both; rw [l1, f1]; rfl, (l2.append f2).trans (rows_or (fun x => ?_) (fun x => ?_))⟩
    · show x ≤ k ↔ x < k ∨ x = k
      exact le_iff_lt_or_eq
    · rintro ⟨hc, hd⟩
      have hc : x < k := hc
      have hd : x = k := hd
      exact absurd hc (by rw [hd]; exact lt_irrefl _)
  | other =>
    refine ⟨[], rfl, ?_⟩
    have : rows P .other k = [] := by
      unfold rows
      rw [List.map_eq_nil_iff, List.filter_eq_nil_iff]
      intro p _ hc
      exact (of_decide_eq_true hc : False)
    rw [this]

theorem find_mem {c : Codec K Id} (hg : c.Good) {t : BTree.Tree K} {P : List (K × Id)} (h : Answers t (ent c P)) (k : K) :
    ∃ l, find c t k = .ok l ∧ (∀ d, d ∈ l ↔ (k, d) ∈ P) ∧ (l = [] ↔ k ∉ P.map Prod.fst) := by
  obtain ⟨l, h1, h2⟩ := find_answers hg h k
  have hm : ∀ d, d ∈ l ↔ (k, d) ∈ P := by
    intro d
    rw [h2.mem_iff]
    unfold rows
    constructor
    · intro hd
      obtain ⟨p, hp, rfl⟩ := List.mem_map.mp hd
      obtain ⟨hp1, hp2⟩ := List.mem_filter.mp hp
      have : p.1 = k := of_decide_eq_true hp2
      rw [← this]; exact hp1
    · intro hd
      exact List.mem_map.mpr ⟨(k, d), List.mem_filter.mpr ⟨hd, decide_eq_true (show k = k from rfl)⟩, rfl⟩
  refine ⟨l, h1, hm, ?_, ?_⟩
  · rintro rfl hc
    obtain ⟨p, hp, hq⟩ := List.mem_map.mp hc
    have : (k, p.2) ∈ P := by rw [← hq]; exact hp
    exact absurd ((hm _).mpr this) List.not_mem_nil
  · intro hc
    rw [List.eq_nil_iff_forall_not_mem]
    intro d hd
    exact hc (List.mem_map.mpr ⟨_, (hm d).mp hd, rfl⟩)

/-- The call on the tree behind a call on the index, if there is one. -/
def treeOp (c : Codec K Id) (P : List (K × Id)) : Op K Id → Option (BTree.Op K)
  | .insert k d => if (k, d) ∈ P then none else some (.append k (c.pack k d))
  | .removeKey k => some (.removeIndex k)
  | .removePair k d => if k ∈ P.map Prod.fst then some (.remove k (c.pack k d)) else none

theorem apply_tree {c : Codec K Id} (hg : c.Good) {mx : Nat} {t : BTree.Tree K} {P : List (K × Id)} (h : Answers t (ent c P)) (o : Op K Id) :
    apply c mx t o = match treeOp c P o with
      | none => .ok t
      | some q => (BTree.apply mx t q).bind fun r => .ok r.1 := by
  cases o with
  | insert k d =>
    obtain ⟨l, h1, h2, _⟩ := find_mem hg h k
    show insert c mx t k d = _
    unfold insert
    rw [h1]
    show (if d ∈ l then _ else _) = _
    by_cases hm : (k, d) ∈ P
    · rw [if_pos ((h2 d).mpr hm)]
      simp only [treeOp, if_pos hm]
    · rw [if_neg (fun hc => hm ((h2 d).mp hc)), hg.key]
      simp only [treeOp, if_neg hm]
      rfl
  | removeKey k => rfl
  | removePair k d =>
    obtain ⟨l, h1, _, h3⟩ := find_mem hg h k
    show removePair c mx t k d = _
    unfold removePair
    rw [h1]
    show (if l = [] then _ else _) = _
    by_cases hm : k ∈ P.map Prod.fst
    · rw [if_neg (fun hc => (h3.mp hc) hm), hg.key]
      simp only [treeOp, if_pos hm]
      rfl
    · rw [if_pos (h3.mpr hm)]
      simp only [treeOp, if_neg hm]

theorem want_tree {c : Codec K Id} (hg : c.Good) (P : List (K × Id)) (o : Op K Id) :
    match treeOp c P o with
      | none => want P o = P
      | some q => (BTree.want (ent c P) q).1 = ent c (want P o) := by
  cases o with
  | insert k d =>
    by_cases hm : (k, d) ∈ P
    · simp only [treeOp, if_pos hm]
      exact if_pos hm
    · simp only [treeOp, if_neg hm]
      have : BTree.want (ent c P) (.append k (c.pack k d)) = ((k, c.pack k d) :: ent c P, true) := if_neg (fun hc => hm ((ent_mem hg).mp hc))
      rw [this, show want P (.insert k d) = (k, d) :: P from if_neg hm]
      rfl
  | removeKey k =>
    show (ent c P).filter (fun e => decide (e.1 ≠ k)) = _
    rw [ent_filter c P (fun a => decide (a ≠ k))]
    rfl
  | removePair k d =>
    by_cases hm : k ∈ P.map Prod.fst
    · simp only [treeOp, if_pos hm]
      show (ent c P).filter (fun e => decide (e ≠ (k, c.pack k d))) = ent c (P.filter (· ≠ (k, d)))
      unfold ent
      rw [List.filter_map]
      congr 1
      apply List.filter_congr
      intro p _
      rw [Bool.eq_iff_iff]
      simp only [Function.comp, decide_eq_true_eq]
      constructor
      · rintro h1 rfl; exact h1 rfl
      · intro h1 h2
        apply h1
        obtain ⟨h3, h4⟩ := Prod.mk.inj h2
        exact Prod.ext h3 (by rw [← hg.id p.1 p.2, h4, hg.id])
    · simp only [treeOp, if_neg hm]
      show P.filter (· ≠ (k, d)) = P
      rw [List.filter_eq_self]
      intro p hp
      simp only [decide_eq_true_eq]
      rintro rfl
      exact hm (List.mem_map.mpr ⟨_, hp, rfl⟩)

theorem all_tree {c : Codec K Id} (hg : c.Good) {mx : Nat} {Rel : List (K × Bytes) → BTree.Tree K → Prop} {ok : List (K × Id) → Op K Id → Prop}
    {okT : List (K × Bytes) → BTree.Op K → Prop} (hans : ∀ S t, Rel S t → Answers t S)
    (hok : ∀ P o q, ok P o → treeOp c P o = some q → okT (ent c P) q)
    (hstep : ∀ S t q, Rel S t → okT S q → ∃ t', BTree.apply mx t q = .ok (t', (BTree.want S q).2) ∧ Rel (BTree.want S q).1 t') :
    ∀ (ops : List (Op K Id)) (t : BTree.Tree K) (P : List (K × Id)), Rel (ent c P) t → Along ok P ops →
    ∃ t', applyAll c mx t ops = .ok t' ∧ Rel (ent c (wants P ops)) t' := by
  intro ops
  induction ops with
  | nil => intro t P h _; exact ⟨t, rfl, h⟩
  | cons o ops ih =>
    intro t P h ha
    have hap := apply_tree hg (mx := mx) (hans _ _ h) o
    have hwt := want_tree hg P o
    have h1 : ∃ t1, apply c mx t o = .ok t1 ∧ Rel (ent c (want P o)) t1 := by
      cases hq : treeOp c P o with
      | none =>
        rw [hq] at hap hwt
        exact ⟨t, hap, by rw [hwt]; exact h⟩
      | some q =>
        rw [hq] at hap hwt
        obtain ⟨t1, e1, e2⟩ := hstep _ _ _ h (hok P o q ha.1 hq)
        refine ⟨t1, ?_, by rw [← hwt]; exact e2⟩
        rw [hap]
        show (BTree.apply mx t q).bind _ = _
        rw [e1]; rfl
    obtain ⟨t1, e1, e2⟩ := h1
    obtain ⟨t2, f1, f2⟩ := ih t1 (want P o) e2 ha.2
    refine ⟨t2, ?_, f2⟩
    show (apply c mx t o).bind _ = _
    rw [e1]
    exact f1

theorem plain_ok {c : Codec K Id} (hg : c.Good) {mx : Nat} (P : List (K × Id)) (o : Op K Id) (q : BTree.Op K) (ho : PlainCall mx P o)
    (hq : treeOp c P o = some q) : BTree.PlainCall mx (ent c P) q := by
  cases o with
  | insert k d =>
    by_cases hm : (k, d) ∈ P
    · simp [treeOp, hm] at hq
    · simp only [treeOp, if_neg hm, Option.some.injEq] at hq
      subst hq
      obtain ⟨h1, h2⟩ := ho
      exact ⟨(hg.size k d).1, (hg.size k d).2, h1, Or.inl (by rw [ent_keys]; exact h2.resolve_right hm)⟩
  | removeKey k =>
    simp only [treeOp, Option.some.injEq] at hq
    subst hq
    show k ∈ (ent c P).map Prod.fst ∨ _
    rw [ent_keys]
    unfold ent
    rw [List.length_map]
    exact ho
  | removePair k d =>
    by_cases hm : k ∈ P.map Prod.fst
    · simp only [treeOp, if_pos hm, Option.some.injEq] at hq
      subst hq
      have ho' : (k, d) ∈ P ∨ k ∉ P.map Prod.fst := ho
      exact (ent_mem hg).mpr (ho'.resolve_right (not_not_intro hm))
    · simp [treeOp, if_neg hm] at hq

theorem few_ok {c : Codec K Id} (hg : c.Good) {mx : Nat} (P : List (K × Id)) (o : Op K Id) (q : BTree.Op K) (ho : FewKeysCall mx P o)
    (hq : treeOp c P o = some q) : BTree.FewKeysCall mx (ent c P) q := by
  cases o with
  | insert k d =>
    by_cases hm : (k, d) ∈ P
    · simp [treeOp, hm] at hq
    · simp only [treeOp, if_neg hm, Option.some.injEq] at hq
      subst hq
      exact ⟨(hg.size k d).1, (hg.size k d).2, by rw [ent_keys]; exact ho⟩
  | removeKey k =>
    simp only [treeOp, Option.some.injEq] at hq
    subst hq
    trivial
  | removePair k d =>
    by_cases hm : k ∈ P.map Prod.fst
    · simp only [treeOp, if_pos hm, Option.some.injEq] at hq
      subst hq
      have ho' : P.filter (·.1 = k) = [(k, d)] ∨ k ∉ P.map Prod.fst := ho
      have h1 := ho'.resolve_right (not_not_intro hm)
      show (ent c P).filter (fun e => decide (e.1 = k)) = _
      rw [ent_filter c P (fun a => decide (a = k)), h1]
      rfl
    · simp [treeOp, if_neg hm] at hq

end Verif.IndexDisk
