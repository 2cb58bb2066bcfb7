import Verif.IndexDisk.Lemmas
import Verif.BTree.Props
/-!
C16: queries on the on-disk index.  Specification: `Spec.lean`.
-/
namespace Verif.IndexDisk
open Verif.BTree (Answers TInv One)
set_option linter.unusedSectionVars false

section
variable {K Id : Type} [LinearOrder K] [BoundedOrder K] [DecidableEq Id]

/-- Every comparison, every probe key: over a tree that answers from the entries of a set of pairs (any set, with any
number of rows per key), the query returns exactly the rows whose key stands in the relation, each once. -/
theorem C16_queries {c : Codec K Id} (hg : c.Good) (P : List (K × Id)) (hP : P.length < 2 ^ 64) (t : BTree.Tree K)
    (h : Answers t (P.map fun p => (p.1, c.pack p.1 p.2))) (k : K) (cmp : Cmp) :
    ∃ l, query c t k cmp = .ok l ∧ l.Perm (rows P cmp k) :=
  query_answers hg h (by unfold NOLIMIT; omega) k cmp

/-- Every history of calls with one row per key (calls as described at `PlainCall`): every query afterwards returns
exactly its rows.  Missing for the full claim: several rows per key with many keys, see `C16_second_row_fails`. -/
theorem C16_one_row_per_key_partial {c : Codec K Id} (hg : c.Good) (mx : Nat) (h12 : 12 ≤ mx) (ops : List (Op K Id))
    (h : Along (PlainCall mx) [] ops) (hP : (wants [] ops).length < 2 ^ 64) :
    ∃ t, applyAll c mx BTree.empty ops = .ok t ∧ ∀ k cmp, ∃ l, query c t k cmp = .ok l ∧ l.Perm (rows (wants [] ops) cmp k) := by
  obtain ⟨t, e1, e2, e3⟩ := all_tree (Rel := fun S t => TInv mx t ∧ (BTree.fl t.leaves).Perm S) hg
    (fun S t hr => BTree.answers_of h12 hr.1.rinv hr.2 (by rw [hr.1.count, hr.2.length_eq])) (plain_ok hg)
    (fun S t q hr hq => BTree.plain_step h12 hr.1 hr.2 hq) ops BTree.empty [] ⟨TInv.empty', List.Perm.nil⟩ h
  exact ⟨t, e1, C16_queries hg _ hP t (BTree.answers_of h12 e2.rinv e3 (e2.count.trans e3.length_eq))⟩

/-- Every history of calls with any number of rows per key and fewer than `mx` distinct keys (calls as described at
`FewKeysCall`): every query afterwards returns exactly its rows. -/
theorem C16_few_keys_partial {c : Codec K Id} (hg : c.Good) (mx : Nat) (h12 : 12 ≤ mx) (ops : List (Op K Id))
    (h : Along (FewKeysCall mx) [] ops) (hP : (wants [] ops).length < 2 ^ 64) :
    ∃ t, applyAll c mx BTree.empty ops = .ok t ∧ ∀ k cmp, ∃ l, query c t k cmp = .ok l ∧ l.Perm (rows (wants [] ops) cmp k) := by
  have hans : ∀ (S : List (K × Bytes)) (t : BTree.Tree K), S.Nodup ∧ One S t → Answers t S := fun S t hr => by
    obtain ⟨f1, f2, f3⟩ := hr.2.rinv (mx := mx)
    exact BTree.answers_of h12 f1 f2 f3
  obtain ⟨t, e1, e2⟩ := all_tree (Rel := fun S t => S.Nodup ∧ One S t) hg hans (few_ok hg)
    (fun S t q hr hq => by
      obtain ⟨t', a, b⟩ := BTree.few_step hr.1 hr.2 hq
      exact ⟨t', a, BTree.want_nodup hr.1 q, b⟩) ops BTree.empty [] ⟨List.nodup_nil, One.none rfl⟩ h
  exact ⟨t, e1, C16_queries hg _ hP t (hans _ _ e2)⟩

end

/-! ### concrete histories -/

/-- A codec: key and row in two bytes each. -/
def codec : Codec (Fin 400) (Fin 60000) where
  pack k d := [UInt8.ofNat (k.val / 256), UInt8.ofNat (k.val % 256), UInt8.ofNat (d.val / 256), UInt8.ofNat (d.val % 256)]
  keyOf x := Fin.ofNat 400 ((x[0]?.getD 0).toNat * 256 + (x[1]?.getD 0).toNat)
  idOf x := Fin.ofNat 60000 ((x[2]?.getD 0).toNat * 256 + (x[3]?.getD 0).toNat)

theorem codec_good : codec.Good := by
  refine ⟨fun k d => ?_, fun k d => ?_, fun k d => by simp [codec]⟩
  · apply Fin.ext
    simp only [codec, List.getElem?_cons_zero, List.getElem?_cons_succ, Option.getD_some, UInt8.toNat_ofNat', Fin.val_ofNat]
    have := k.isLt
    have h1 : k.val / 256 % 2 ^ 8 = k.val / 256 := Nat.mod_eq_of_lt (by omega)
    have h2 : k.val % 256 % 2 ^ 8 = k.val % 256 := Nat.mod_eq_of_lt (by omega)
    rw [h1, h2, Nat.mod_eq_of_lt] <;> omega
  · apply Fin.ext
    simp only [codec, List.getElem?_cons_zero, List.getElem?_cons_succ, Option.getD_some, UInt8.toNat_ofNat', Fin.val_ofNat]
    have := d.isLt
    have h1 : d.val / 256 % 2 ^ 8 = d.val / 256 := Nat.mod_eq_of_lt (by omega)
    have h2 : d.val % 256 % 2 ^ 8 = d.val % 256 := Nat.mod_eq_of_lt (by omega)
    rw [h1, h2, Nat.mod_eq_of_lt] <;> omega

/-- One row for each of the keys 0, …, n - 1. -/
def fill (n : Nat) : List (Op (Fin 400) (Fin 60000)) := (List.range n).map fun i => .insert (Fin.ofNat 400 i) (Fin.ofNat 60000 i)

instance (mx : Nat) (P : List (Fin 400 × Fin 60000)) : (o : Op (Fin 400) (Fin 60000)) → Decidable (PlainCall mx P o)
  | .insert _ _ => inferInstanceAs (Decidable (_ ∧ _))
  | .removeKey _ => inferInstanceAs (Decidable (_ ∨ _))
  | .removePair _ _ => inferInstanceAs (Decidable (_ ∨ _))

instance (mx : Nat) (P : List (Fin 400 × Fin 60000)) : (o : Op (Fin 400) (Fin 60000)) → Decidable (FewKeysCall mx P o)
  | .insert _ _ => inferInstanceAs (Decidable (_ < _))
  | .removeKey _ => inferInstanceAs (Decidable True)
  | .removePair _ _ => inferInstanceAs (Decidable (_ ∨ _))

instance decAlong {ok : List (Fin 400 × Fin 60000) → Op (Fin 400) (Fin 60000) → Prop} [∀ P o, Decidable (ok P o)] :
    (P : List (Fin 400 × Fin 60000)) → (ops : List (Op (Fin 400) (Fin 60000))) → Decidable (Along ok P ops)
  | _, [] => isTrue trivial
  | P, _ :: os => @instDecidableAnd _ _ _ (decAlong (want P _) os)

example : Along (PlainCall 128) [] (fill 200 ++ [.removePair 3 3, .removeKey 100, .insert 100 5, .insert 100 5]) := by decide +kernel

example : Along (FewKeysCall 128) [] [.insert (5 : Fin 400) (1 : Fin 60000), .insert 5 2, .insert 4 1, .removePair 4 1, .removeKey 9, .insert 5 3] := by
  decide +kernel

/-- The rows found for key 64. -/
def rowsOf64 (ops : List (Op (Fin 400) (Fin 60000))) : Option (List (Fin 60000)) := match applyAll codec 128 BTree.empty ops with
  | .ok t => match query codec t 64 .eq with
    | .ok l => some l
    | _ => none
  | _ => none

/-- 128 keys with one row each, then a second row for the key 64: the query for 64 finds only one of the two rows. -/
theorem C16_second_row_fails : rowsOf64 (fill 128 ++ [.insert 64 999]) = some [64] ∧
    (rows (wants [] (fill 128 ++ [.insert 64 999])) .eq 64).length = 2 := by decide +kernel

/-- The full claim does not hold of the code. -/
theorem C16_fails : ¬ C16_claim codec 128 := by
  intro h
  obtain ⟨t, e, hq⟩ := h (fill 128 ++ [.insert 64 999])
  obtain ⟨l, h1, h2⟩ := hq 64 .eq
  have h3 : rowsOf64 (fill 128 ++ [.insert 64 999]) = some l := by
    have : ∀ ops, applyAll codec 128 BTree.empty ops = .ok t → rowsOf64 ops = some l := by
      intro ops ho
      unfold rowsOf64
      rw [ho]
      simp only
      rw [h1]
    exact this _ e
  rw [C16_second_row_fails.1] at h3
  have h4 := h2.length_eq
  rw [C16_second_row_fails.2, ← Option.some.inj h3] at h4
  exact absurd h4 (by decide)

end Verif.IndexDisk
