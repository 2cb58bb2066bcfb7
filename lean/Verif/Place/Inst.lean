import Verif.Place.Lemmas
/-!
Lemmas about instances.
-/
namespace Verif.Place
open Verif

/-- The phases in which the path of an instance is in the set. -/
def owns : Phase → Prop
  | .opening => True
  | .live => True
  | .failed => True
  | _ => False

theorem held_owns {p : Phase} (h : held_ p) : owns p := by cases p <;> first | trivial | exact h.elim

structure Good (cfg : Nat → Cfg) (s : Inst) : Prop where
  taken : ∀ k, k ∈ s.taken ↔ ∃ i, owns (s.phase i) ∧ pathKey (cfg i).main = k
  one : ∀ i j, owns (s.phase i) → owns (s.phase j) → pathKey (cfg i).main = pathKey (cfg j).main → i = j

theorem setPhase_self (s : Inst) (i : Nat) (p : Phase) : (setPhase s i p).phase i = p := by simp [setPhase]
theorem setPhase_other (s : Inst) {i j : Nat} (p : Phase) (h : j ≠ i) : (setPhase s i p).phase j = s.phase j := by simp [setPhase, h]

/-- A step that changes neither whether the instance owns its path nor the set. -/
theorem good_setPhase {cfg : Nat → Cfg} {s : Inst} (h : Good cfg s) {i : Nat} {p : Phase} (hp : owns p ↔ owns (s.phase i)) : Good cfg (setPhase s i p) := by
  have e : ∀ j, owns ((setPhase s i p).phase j) ↔ owns (s.phase j) := by
    intro j
    by_cases hj : j = i
    · subst hj; rw [setPhase_self]; exact hp
    · rw [setPhase_other s p hj]
  refine ⟨fun k => ?_, fun a b ha hb => h.one a b ((e a).1 ha) ((e b).1 hb)⟩
  rw [show (setPhase s i p).taken = s.taken from rfl, h.taken k]
  simp only [e]

theorem good_act {cfg : Nat → Cfg} {s s' : Inst} (h : Good cfg s) {a : Act} (ha : act cfg s a = some s') : Good cfg s' := by
  cases a with
  | check i =>
    simp only [act] at ha
    split at ha
    · rename_i hi
      split at ha
      · cases ha
        exact good_setPhase h (by rw [hi]; exact Iff.rfl)
      · rename_i hn
        cases ha
        have no : ∀ j, owns (s.phase j) → pathKey (cfg j).main ≠ pathKey (cfg i).main := fun j hj e => hn ((h.taken _).2 ⟨j, hj, e⟩)
        have ph : ∀ j, owns ((setPhase s i .opening).phase j) ↔ j = i ∨ owns (s.phase j) := by
          intro j
          by_cases hj : j = i
          · subst hj; simp [setPhase_self, owns]
          · simp [setPhase_other s _ hj, hj]
        refine ⟨fun k => ?_, fun a b ha hb e => ?_⟩
        · simp only [List.mem_cons, h.taken k, ph]
          constructor
          · rintro (rfl | ⟨j, hj, e⟩)
            · exact ⟨i, .inl rfl, rfl⟩
            · exact ⟨j, .inr hj, e⟩
          · rintro ⟨j, rfl | hj, e⟩
            · exact .inl e.symm
            · exact .inr ⟨j, hj, e⟩
        · rcases (ph a).1 ha with ea | ha' <;> rcases (ph b).1 hb with eb | hb'
          · rw [ea, eb]
          · exact absurd (ea ▸ e.symm) (no b hb')
          · exact absurd (eb ▸ e) (no a ha')
          · exact h.one a b ha' hb' e
    · cases ha
  | opened i =>
    simp only [act] at ha
    split at ha
    · rename_i hi; cases ha
      exact good_setPhase h (by rw [hi]; exact Iff.rfl)
    · cases ha
  | openFails i =>
    simp only [act] at ha
    split at ha
    · rename_i hi; cases ha
      exact good_setPhase h (by rw [hi]; exact Iff.rfl)
    · cases ha
  | erase i =>
    simp only [act] at ha
    split at ha
    · rename_i hi; cases ha
      have hio : owns (s.phase i) := by rw [hi]; trivial
      have ph : ∀ j, owns ((setPhase s i .closing).phase j) ↔ j ≠ i ∧ owns (s.phase j) := by
        intro j
        by_cases hj : j = i
        · subst hj; simp [setPhase_self, owns]
        · simp [setPhase_other s _ hj, hj]
      refine ⟨fun k => ?_, fun a b ha hb => h.one a b ((ph a).1 ha).2 ((ph b).1 hb).2⟩
      simp only [List.mem_filter, h.taken k, ph, decide_eq_true_eq]
      constructor
      · rintro ⟨⟨j, hj, e⟩, hk⟩
        exact ⟨j, ⟨fun ej => hk (by rw [← e, ej]), hj⟩, e⟩
      · rintro ⟨j, ⟨hj, ho⟩, e⟩
        exact ⟨⟨j, ho, e⟩, fun hk => hj (h.one j i ho hio (e.trans hk))⟩
    · cases ha
  | destroyed i =>
    simp only [act] at ha
    split at ha
    · rename_i hi; cases ha
      exact good_setPhase h (by rw [hi]; exact Iff.rfl)
    · cases ha

theorem good_acts {cfg : Nat → Cfg} : ∀ (as : List Act) {s s' : Inst}, Good cfg s → acts cfg s as = some s' → Good cfg s'
  | [], s, s', h, e => by simp [acts] at e; exact e ▸ h
  | a :: as, s, s', h, e => by
    simp only [acts, Option.bind_eq_some_iff] at e
    obtain ⟨s1, e1, e2⟩ := e
    exact good_acts as (good_act h e1) e2

theorem good_reached {cfg : Nat → Cfg} {s : Inst} (h : reached cfg s) : Good cfg s := by
  obtain ⟨as, e⟩ := h
  refine good_acts as (s := start) ⟨fun k => ?_, fun i j hi => False.elim hi⟩ e
  simp [start, owns]

theorem failed_stays {cfg : Nat → Cfg} {i : Nat} : ∀ (as : List Act) {s s' : Inst}, s.phase i = .failed → acts cfg s as = some s' → s'.phase i = .failed
  | [], s, s', h, e => by simp [acts] at e; exact e ▸ h
  | a :: as, s, s', h, e => by
    simp only [acts, Option.bind_eq_some_iff] at e
    obtain ⟨s1, e1, e2⟩ := e
    refine failed_stays as ?_ e2
    have key : ∀ {j : Nat} {p : Phase}, s.phase j ≠ .failed → (setPhase s j p).phase i = .failed := by
      intro j p hj
      by_cases ej : i = j
      · subst ej; exact absurd h hj
      · rw [setPhase_other s p ej, h]
    cases a with
    | check j =>
      simp only [act] at e1
      split at e1
      · rename_i hj
        split at e1 <;> (cases e1; exact key (by rw [hj]; simp))
      · cases e1
    | _ j =>
      simp only [act] at e1
      split at e1
      · rename_i hj
        cases e1; exact key (by rw [hj]; simp)
      · cases e1

/-! ### Directories written out -/

theorem split_spelled : ∀ (names : List Bytes), (∀ n ∈ names, plain n) → split (names.flatMap fun n => 47 :: n) = [] :: names
  | [], _ => rfl
  | n :: names, h => by
    have ih := split_spelled names fun m hm => h m (by simp [hm])
    have hn := h n (by simp)
    cases names with
    | nil => simp [split, split_name n hn.2.2.2.1]
    | cons m ms =>
      have e : ((n :: m :: ms).flatMap fun n => 47 :: n) = (47 :: n) ++ 47 :: (m ++ ms.flatMap fun n => 47 :: n) := by simp
      have e' : ((m :: ms).flatMap fun n => 47 :: n) = [] ++ 47 :: (m ++ ms.flatMap fun n => 47 :: n) := by simp
      rw [e', split_append] at ih
      simp only [split, List.singleton_append, List.cons.injEq, true_and] at ih
      rw [e, split_append, ih]
      simp [split, split_name n hn.2.2.2.1]

theorem walk_names : ∀ (names : List Bytes), (∀ n ∈ names, plain n) → ∀ l, names.foldl walk l = l ++ names
  | [], _, l => by simp
  | n :: names, h, l => by
    rw [List.foldl_cons, walk_plain (h n (by simp)), walk_names names (fun m hm => h m (by simp [hm]))]
    simp

end Verif.Place
