import Mathlib.Data.List.Perm.Basic
import Mathlib.Data.List.Range
import Mathlib.Data.List.Nodup
/-!
C12, the files of the leaves: each leaf is stored in a file named after its identifier (b_plus_tree.cpp:298-302,
320-324, 378-382), so two leaves with the same identifier overwrite each other.
-/
namespace Verif.BTree.Ids

/-- The identifiers: those of the leaves, and `missed_ids_`, a queue.  `leaf_nodes_count_` is the number of leaves. -/
structure Ids where
  live : List Nat
  missed : List Nat

/-- `get_unique_id_`, b_plus_tree.cpp:998-1006, followed by the creation of the leaf (298-310, 320-326, 378-385). -/
def create (s : Ids) : Ids := match s.missed with
  | [] => ⟨s.live ++ [s.live.length], []⟩
  | i :: r => ⟨s.live ++ [i], r⟩

/-- Deletion of leaf number `n` in any order, b_plus_tree.cpp:447-450, 542-543, 592-595, 683-684. -/
def delete (s : Ids) (n : Nat) : Ids := match s.live[n]? with
  | none => s
  | some i => ⟨s.live.eraseIdx n, s.missed ++ [i]⟩

/-- `load` by a new object, b_plus_tree.cpp:803-823: `missed_ids_` is empty (the list `ids_` is filled, never used). -/
def reload (s : Ids) : Ids := ⟨s.live, []⟩

inductive Ev where
  | create
  | delete (n : Nat)

def run (s : Ids) : List Ev → Ids
  | [] => s
  | .create :: es => run (create s) es
  | .delete n :: es => run (delete s n) es

theorem inv : ∀ (es : List Ev) (s : Ids), (s.live ++ s.missed).Perm (List.range (s.live ++ s.missed).length) →
    ((run s es).live ++ (run s es).missed).Perm (List.range ((run s es).live ++ (run s es).missed).length) := by
  intro es
  induction es with
  | nil => intro s h; exact h
  | cons e es ih =>
    intro s h
    cases e with
    | create =>
      apply ih
      unfold create
      cases hm : s.missed with
      | nil =>
        rw [hm, List.append_nil] at h
        simp only [List.append_nil, List.length_append, List.length_singleton, List.range_succ]
        exact h.append_right _
      | cons i r =>
        rw [hm] at h
        simp only [List.append_assoc, List.singleton_append]
        exact h
    | delete n =>
      apply ih
      unfold delete
      cases hn : s.live[n]? with
      | none => exact h
      | some i =>
        have hlt : n < s.live.length := by
          by_contra hc
          rw [List.getElem?_eq_none (by omega)] at hn
          cases hn
        have hi : s.live[n] = i := by
          rw [List.getElem?_eq_getElem hlt] at hn
          exact Option.some.inj hn
        have hp : (s.live.eraseIdx n ++ (s.missed ++ [i])).Perm (s.live ++ s.missed) := by
          rw [← List.append_assoc]
          refine List.perm_append_comm.trans ?_
          show (i :: (s.live.eraseIdx n ++ s.missed)).Perm _
          rw [← List.cons_append]
          apply List.Perm.append_right
          rw [← hi]
          exact List.getElem_cons_eraseIdx_perm hlt
        simp only
        rw [hp.length_eq]
        exact hp.trans h

/-- While one object lives, however leaves are created and deleted, no two leaves share a file. -/
theorem C12_files_distinct (es : List Ev) : (run ⟨[], []⟩ es).live.Nodup := by
  have h := inv es ⟨[], []⟩ List.Perm.nil
  exact (List.nodup_append.mp (h.nodup_iff.mpr List.nodup_range)).1

example : (run ⟨[], []⟩ [.create, .create, .create, .delete 0, .create, .create]).live = [1, 2, 0, 3] := by decide

/-- After a restart two leaves can get the same file: three leaves, one deleted, a restart, one more leaf. -/
theorem C12_files_after_load_fails :
    ¬ (run (reload (run ⟨[], []⟩ [.create, .create, .create, .delete 0])) [.create]).live.Nodup := by decide

end Verif.BTree.Ids
