import Verif.BTree.History
import Mathlib.Order.WithBot
import Mathlib.Order.Fin.Basic
/-!
C12: the on-disk B+ tree is a set of entries.  Specification: `Spec.lean`.
-/
namespace Verif.BTree
open Verif.Seg
set_option linter.unusedSectionVars false

section
variable {K : Type} [LinearOrder K] [BoundedOrder K]

/-- Any history in which a key never has two items, with the calls described at `PlainCall`: every answer is the one of
the set, afterwards every question is answered from the set.  Any number of entries, leaves, levels.
Missing for the full claim: see the `_fails` theorems below. -/
theorem C12_distinct_keys_partial (mx : Nat) (h12 : 12 ≤ mx) (ops : List (Op K)) (h : Along (PlainCall mx) [] ops) :
    ∃ t, applyAll mx empty ops = .ok (t, (wants [] ops).2) ∧ Answers t (wants [] ops).1 := by
  obtain ⟨t, e1, e2, e3⟩ := plain_all h12 ops empty [] TInv.empty' List.Perm.nil h
  exact ⟨t, e1, answers_of h12 e2.rinv e3 (by rw [e2.count, e3.length_eq])⟩

/-- Any history with several items per key, but few distinct keys, with the calls described at `FewKeysCall`. -/
theorem C12_few_keys_partial (mx : Nat) (h12 : 12 ≤ mx) (ops : List (Op K)) (h : Along (FewKeysCall mx) [] ops) :
    ∃ t, applyAll mx empty ops = .ok (t, (wants [] ops).2) ∧ Answers t (wants [] ops).1 := by
  obtain ⟨t, e1, e2⟩ := few_all (mx := mx) ops empty [] List.nodup_nil (One.none rfl) h
  obtain ⟨f1, f2, f3⟩ := e2.rinv (mx := mx)
  exact ⟨t, e1, answers_of h12 f1 f2 f3⟩

theorem reload_answers {mx : Nat} (h12 : 12 ≤ mx) {t : Tree K} (h : RInv mx t) {S : List (K × Bytes)} (hp : (fl t.leaves).Perm S)
    (hc : t.count = S.length) : Answers (reload mx t) S :=
  answers_of h12 (h.reload h12) (by rw [reload_leaves h]; exact hp) hc

theorem leaves_empty {mx : Nat} {t : Tree K} (h : RInv mx t) {S : List (K × Bytes)} (hp : (fl t.leaves).Perm S) :
    t.leaves.length = 0 ↔ S = [] := by
  constructor
  · intro h0
    rw [List.length_eq_zero_iff.mp h0] at hp
    exact hp.nil_eq.symm
  · rintro rfl
    match hq : t.leaves with
    | [] => rfl
    | l :: ls =>
      exfalso
      rw [hq, fl_cons] at hp
      exact h.ne l (by rw [hq]; simp) (List.append_eq_nil_iff.mp hp.eq_nil).1

theorem many_leaves {mx : Nat} {t : Tree K} (h : TInv mx t) (hlv : t.levels ≠ []) :
    t.leaves.length * (mx / 4) ≤ (fl t.leaves).length := by
  have : ∀ ls : List (Leaf K), (∀ l ∈ ls, mx / 4 ≤ (lflat l).length) → ls.length * (mx / 4) ≤ (fl ls).length := by
    intro ls
    induction ls with
    | nil => intro _; simp
    | cons l ls ih =>
      intro hl
      rw [fl_cons, List.length_append, List.length_cons, Nat.succ_mul]
      have := hl l (by simp)
      have := ih fun q hq => hl q (by simp [hq])
      omega
  apply this
  intro l hl
  have := (h.size l hl).2 hlv
  rw [(h.leaf.seg l hl).unq] at this
  exact this

theorem few_leaves {mx : Nat} {t : Tree K} (h : TInv mx t) : (fl t.leaves).length ≤ t.leaves.length * mx := by
  have : ∀ ls : List (Leaf K), (∀ l ∈ ls, (lflat l).length ≤ mx) → (fl ls).length ≤ ls.length * mx := by
    intro ls
    induction ls with
    | nil => intro _; simp [fl_nil]
    | cons l ls ih =>
      intro hl
      rw [fl_cons, List.length_append, List.length_cons, Nat.succ_mul]
      have := hl l (by simp)
      have := ih fun q hq => hl q (by simp [hq])
      omega
  apply this
  intro l hl
  have := (h.size l hl).1
  rw [(h.leaf.seg l hl).unq] at this
  exact this

/-- The histories of `C12_distinct_keys_partial`, followed by a flush of a tree that is not empty (whatever the files
held before, and with fewer than 32767 · (mx / 4) entries) and a load by a new object: every question is answered
from the set. -/
theorem C12_flush_load_partial (mx : Nat) (h12 : 12 ≤ mx) (ops : List (Op K)) (h : Along (PlainCall mx) [] ops)
    (hne : (wants [] ops).1 ≠ []) (hlen : (wants [] ops).1.length < 32767 * (mx / 4)) (before : Option (Tree K)) :
    ∃ t, applyAll mx empty ops = .ok (t, (wants [] ops).2) ∧
      ∃ d, flush t before = .ok d ∧ Answers (load mx empty d) (wants [] ops).1 := by
  obtain ⟨t, e1, e2, e3⟩ := plain_all h12 ops empty [] TInv.empty' List.Perm.nil h
  have hr := e2.rinv
  refine ⟨t, e1, some t, ?_, reload_answers h12 hr e3 (by rw [e2.count, e3.length_eq])⟩
  unfold flush
  rw [if_neg (fun hc => hne ((leaves_empty hr e3).mp hc)), if_neg]
  by_cases hlv : t.levels = []
  · have : t.leaves.length ≤ 1 := by
      rcases e2.shape with ⟨hc, _⟩ | hs
      · rw [hc]; simp
      · rw [hlv] at hs
        have : t.leaves.length = 1 := hs
        omega
    unfold MAXLEAVES
    omega
  · have := many_leaves e2 hlv
    rw [e3.length_eq] at this
    have h3 : t.leaves.length < 32767 := by
      by_contra hc
      have := Nat.mul_le_mul_right (mx / 4) (not_lt.mp hc)
      omega
    unfold MAXLEAVES
    omega

/-- The histories of `C12_few_keys_partial`, followed by a flush of a tree that is not empty and a load. -/
theorem C12_few_keys_flush_load_partial (mx : Nat) (h12 : 12 ≤ mx) (ops : List (Op K)) (h : Along (FewKeysCall mx) [] ops)
    (hne : (wants [] ops).1 ≠ []) (before : Option (Tree K)) :
    ∃ t, applyAll mx empty ops = .ok (t, (wants [] ops).2) ∧
      ∃ d, flush t before = .ok d ∧ Answers (load mx empty d) (wants [] ops).1 := by
  obtain ⟨t, e1, e2⟩ := few_all (mx := mx) ops empty [] List.nodup_nil (One.none rfl) h
  obtain ⟨f1, f2, f3⟩ := e2.rinv (mx := mx)
  refine ⟨t, e1, some t, ?_, reload_answers h12 f1 f2 f3⟩
  unfold flush
  rw [if_neg (fun hc => hne ((leaves_empty f1 f2).mp hc)), if_neg]
  cases e2 with
  | none hs => simp [empty]
  | leaf s _ _ _ => simp [MAXLEAVES]

end

/-! ### a history that meets the hypotheses -/

/-- `n` insertions of the keys 0, 1, … with a one-byte item. -/
def fill (n : Nat) : List (Op (Fin 400)) := (List.range n).map fun i => .append (Fin.ofNat 400 i) [7]

instance (mx : Nat) (S : List (Fin 400 × Bytes)) : (o : Op (Fin 400)) → Decidable (PlainCall mx S o)
  | .append _ _ => inferInstanceAs (Decidable (_ ∧ _ ∧ _ ∧ _))
  | .remove _ _ => inferInstanceAs (Decidable (_ ∈ _))
  | .removeIndex _ => inferInstanceAs (Decidable (_ ∨ _))

instance (mx : Nat) (S : List (Fin 400 × Bytes)) : (o : Op (Fin 400)) → Decidable (FewKeysCall mx S o)
  | .append _ _ => inferInstanceAs (Decidable (_ ∧ _ ∧ _))
  | .remove _ _ => inferInstanceAs (Decidable (_ = _))
  | .removeIndex _ => inferInstanceAs (Decidable True)

instance decAlong {ok : List (Fin 400 × Bytes) → Op (Fin 400) → Prop} [∀ S o, Decidable (ok S o)] :
    (S : List (Fin 400 × Bytes)) → (ops : List (Op (Fin 400))) → Decidable (Along ok S ops)
  | _, [] => isTrue trivial
  | S, _ :: os => @instDecidableAnd _ _ _ (decAlong (want S _).1 os)

/-- 200 keys, so several leaves; an entry inserted twice; removals down to the merging of leaves. -/
example : Along (PlainCall 128) [] (fill 200 ++ [.append 64 [7], .remove 3 [7], .removeIndex 64, .append 64 [8]] ++
    (List.range 60).map fun i => .removeIndex (Fin.ofNat 400 (i + 100))) := by decide +kernel

/-- Several items per key, removals of keys that are there and that are not. -/
example : Along (FewKeysCall 128) [] [.append (5 : Fin 400) [1], .append 5 [2], .append 4 [1], .append 5 [1], .remove 4 [1], .removeIndex 9,
    .append 4 [2], .removeIndex 5] := by decide +kernel

/-! ### where the code departs from the full claim -/

/-- The answer to the last call of a history. -/
def lastAnswer (ops : List (Op (Fin 400))) : Option (Option Bool) := match applyAll 128 empty ops with
  | .ok (_, l) => some l.getLast?
  | _ => none

/-- Inserting an entry that is there a second time reports `true` and stores it twice: 128 keys, then the 65th again
(b_plus_tree.cpp:327 compares with `<` where 387 has `<=`). -/
theorem C12_insert_twice_fails : lastAnswer (fill 128 ++ [.append 64 [7]]) = some (some true) ∧
    (wants [] (fill 128 ++ [.append 64 [7]])).2.getLast? = some false := by decide +kernel

/-- Removing an entry that is not there reports `true`. -/
theorem C12_remove_absent_fails : lastAnswer [.append 1 [7], .append 3 [7], .remove 2 [9]] = some (some true) ∧
    (wants [] [.append (1 : Fin 400) [7], .append 3 [7], .remove 2 [9]]).2.getLast? = some false := by decide +kernel

/-- Removing a key that is not there, in a tree of two leaves, leaves a lock behind: the next call never returns
(b_plus_tree.cpp:480-484 and 624-628). -/
theorem C12_remove_missing_key_fails : (match applyAll 128 empty (fill 129 ++ [.removeIndex 200, .append 200 [7]]) with
    | .diverges => true
    | _ => false) = true := by decide +kernel

/-- A flush of a tree that became empty writes nothing (b_plus_tree.cpp:745): the removed entry is back after a load. -/
theorem C12_flush_empty_fails : ∃ (t t' : Tree (Fin 400)) (d d' : Option (Tree (Fin 400))),
    applyAll 128 empty [.append 1 [7]] = .ok (t, [true]) ∧ flush t none = .ok d ∧
    applyAll 128 t [.removeIndex 1] = .ok (t', [true]) ∧ flush t' d = .ok d' ∧
    contains t' 1 [7] = .ok false ∧ contains (load 128 empty d') 1 [7] = .ok true := by
  have h1 : ∃ t, applyAll 128 (empty : Tree (Fin 400)) [.append 1 [7]] = .ok (t, [true]) ∧ Answers t [(1, [7])] :=
    C12_distinct_keys_partial 128 (by omega) [.append 1 [7]] (by decide +kernel)
  obtain ⟨t, e1, e2, e3⟩ := plain_all (K := Fin 400) (mx := 128) (by omega) [.append 1 [7]] empty [] TInv.empty' List.Perm.nil (by decide +kernel)
  obtain ⟨t', f1, f2, f3⟩ := plain_all (K := Fin 400) (mx := 128) (by omega) [.removeIndex 1] t [(1, [7])] e2 e3 (by decide +kernel)
  have hr := e2.rinv
  have hr' := f2.rinv
  have hne : ¬ t.leaves.length = 0 := fun hc => by
    have := (leaves_empty hr e3).mp hc
    revert this; decide +kernel
  have he' : t'.leaves.length = 0 := (leaves_empty hr' f3).mpr (by decide +kernel)
  have hle : ¬ MAXLEAVES < t.leaves.length := by
    by_cases hlv : t.levels = []
    · rcases e2.shape with ⟨hc, _⟩ | hs
      · rw [hc]; simp
      · rw [hlv] at hs
        have : t.leaves.length = 1 := hs
        unfold MAXLEAVES
        omega
    · have := two_leaves (by omega) e2 hlv
      rw [e3.length_eq] at this
      exact absurd this (by decide +kernel)
  refine ⟨t, t', some t, some t, e1, ?_, f1, ?_, ?_, ?_⟩
  · unfold flush
    rw [if_neg hne, if_neg hle]
  · unfold flush
    rw [if_pos he']
  · rw [(answers_of (by omega) hr' f3 (by rw [f2.count, f3.length_eq])).contains]; decide +kernel
  · rw [show load 128 empty (some t) = reload 128 t from rfl,
      (reload_answers (by omega) hr e3 (by rw [e2.count, e3.length_eq])).contains]; decide +kernel

/-- Insertion of the number `i` as a key. -/
def number (i : Nat) : Op (WithTop Nat) := .append ((i : Nat) : WithTop Nat) [7]

/-- Insertion of the keys 0, 1, …, n - 1. -/
def ascend (n : Nat) : List (Op (WithTop Nat)) := (List.range n).map number

theorem ascend_along (mx n : Nat) : ∀ (m : Nat) (S : List (WithTop Nat × Bytes)), (∀ e ∈ S, ∃ i < n, e.1 = ((i : Nat) : WithTop Nat)) →
    Along (PlainCall mx) S ((List.range' n m).map number) ∧
    (wants S ((List.range' n m).map number)).1.length = S.length + m := by
  intro m
  induction m generalizing n with
  | zero => intro S _; exact ⟨trivial, rfl⟩
  | succ m ih =>
    intro S hS
    have hk : ((n : Nat) : WithTop Nat) ∉ S.map Prod.fst := by
      rintro hc
      obtain ⟨e, he, hq⟩ := List.mem_map.mp hc
      obtain ⟨i, hi, hj⟩ := hS e he
      rw [hj] at hq
      have : i = n := by exact_mod_cast hq
      omega
    have hm : (((n : Nat) : WithTop Nat), ([7] : Bytes)) ∉ S := fun hc => hk (List.mem_map.mpr ⟨_, hc, rfl⟩)
    have hw : want S (number n) = ((((n : Nat) : WithTop Nat), [7]) :: S, true) := if_neg hm
    have hr : List.range' n (m + 1) = n :: List.range' (n + 1) m := rfl
    obtain ⟨i1, i2⟩ := ih (n + 1) ((((n : Nat) : WithTop Nat), [7]) :: S) (by
      intro e he
      rcases List.mem_cons.mp he with rfl | he
      · exact ⟨n, by omega, rfl⟩
      · obtain ⟨i, hi, hj⟩ := hS e he
        exact ⟨i, by omega, hj⟩)
    rw [hr, List.map_cons]
    refine ⟨⟨⟨by simp, by simp, WithTop.coe_ne_top, Or.inl hk⟩, by rw [hw]; exact i1⟩, ?_⟩
    show (wants (want S _).1 _).1.length = _
    rw [hw, i2, List.length_cons]
    omega

/-- A tree of many entries overruns the buffer of the metadata when it is flushed, whatever the node capacity. -/
theorem C12_flush_large_fails (mx : Nat) (h12 : 12 ≤ mx) : ∃ (t : Tree (WithTop Nat)) (l : List Bool),
    applyAll mx empty (ascend (32766 * mx + 1)) = .ok (t, l) ∧ flush t none = .ub := by
  have ha := ascend_along mx 0 (32766 * mx + 1) [] (by simp)
  rw [← List.range_eq_range'] at ha
  obtain ⟨t, e1, e2, e3⟩ := plain_all h12 (ascend (32766 * mx + 1)) empty [] TInv.empty' List.Perm.nil ha.1
  refine ⟨t, _, e1, ?_⟩
  have h1 := few_leaves e2
  rw [e3.length_eq] at h1
  have h2 : (wants [] (ascend (32766 * mx + 1))).1.length = 0 + (32766 * mx + 1) := ha.2
  rw [h2] at h1
  have h3 : 32766 < t.leaves.length := by
    by_contra hc
    have := Nat.mul_le_mul_right mx (not_lt.mp hc)
    omega
  unfold flush MAXLEAVES
  rw [if_neg (by omega), if_pos h3]

theorem lastAnswer_ok {ops : List (Op (Fin 400))} {t : Tree (Fin 400)} {l : List Bool} (h : applyAll 128 empty ops = .ok (t, l)) :
    lastAnswer ops = some l.getLast? := by
  unfold lastAnswer
  rw [h]

/-- The full claim does not hold of the code. -/
theorem C12_fails : ¬ C12_claim (Fin 400) 128 := by
  intro h
  obtain ⟨t, e, _⟩ := h (fill 128 ++ [.append 64 [7]]) (by
    intro k x hm
    have : x = [7] ∧ k.val ≤ 127 := by
      rcases List.mem_append.mp hm with hm | hm
      · obtain ⟨i, hi, hq⟩ := List.mem_map.mp hm
        obtain ⟨rfl, rfl⟩ := Op.append.inj hq
        have : i < 128 := List.mem_range.mp hi
        refine ⟨rfl, ?_⟩
        show i % 400 ≤ 127
        omega
      · obtain ⟨rfl, rfl⟩ := Op.append.inj (List.mem_singleton.mp hm)
        exact ⟨rfl, by decide +kernel⟩
    obtain ⟨rfl, hk⟩ := this
    refine ⟨by simp, by simp, ?_⟩
    rintro rfl
    exact absurd hk (by decide +kernel))
  have h1 := C12_insert_twice_fails.1
  have h2 := (lastAnswer_ok e).symm.trans h1
  rw [C12_insert_twice_fails.2] at h2
  exact absurd h2 (by decide)

end Verif.BTree
