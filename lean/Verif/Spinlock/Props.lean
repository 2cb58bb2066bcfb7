import Verif.Spinlock.Model
/-! C43: mutual exclusion of the spin locks, for any number of threads and every schedule. -/
namespace Verif.Spinlock

/-- Specification: whenever a thread is in the exclusive section, no other thread is in either
section. -/
def Exclusive (s : State) : Prop :=
  ∀ i j : Nat, i ≠ j → s.threads[i]? = some .holdX → s.threads[j]? ≠ some .holdX ∧ s.threads[j]? ≠ some .holdS

/-- Number of threads in the exclusive / shared section. -/
def writers (s : State) : Nat := s.threads.count .holdX
def readers (s : State) : Nat := s.threads.count .holdS

/-- The invariant tying the shared word to the sections. -/
def Inv (s : State) : Prop :=
  (writers s = 0 ∧ s.flag = (readers s : Int)) ∨ (writers s = 1 ∧ readers s = 0 ∧ s.flag = minLong)

theorem count_set (l : List Pc) (i : Nat) (p q x : Pc) (h : l[i]? = some p) :
    (l.set i q).count x + (if p = x then 1 else 0) = l.count x + (if q = x then 1 else 0) := by
  induction l generalizing i with
  | nil => simp at h
  | cons a l ih =>
    cases i with
    | zero =>
      simp at h; subst h
      simp only [List.set_cons_zero, List.count_cons, beq_iff_eq]; omega
    | succ i =>
      simp at h
      simp only [List.set_cons_succ, List.count_cons]
      have := ih i h
      omega

theorem inv_init (n : Nat) : Inv (init n) := by
  left
  simp [writers, readers, init, List.count_replicate]

theorem count_pos {l : List Pc} {i : Nat} {p : Pc} (h : l[i]? = some p) : 0 < l.count p :=
  List.count_pos_iff.mpr (List.mem_of_getElem? h)

theorem inv_step {s s' : State} {i : Nat} {a : Act} (h : Inv s) (hs : step s i a = some s') : Inv s' := by
  unfold step at hs
  cases hp : s.threads[i]? with
  | none => rw [hp] at hs; simp at hs
  | some pc =>
    rw [hp] at hs
    simp only at hs
    cases hq : stepPc s.flag pc a with
    | none => rw [hq] at hs; simp at hs
    | some r =>
      obtain ⟨f, pc'⟩ := r
      rw [hq] at hs
      simp only [Option.some.injEq] at hs
      subst hs
      have hX := count_set s.threads i pc pc' .holdX hp
      have hS := count_set s.threads i pc pc' .holdS hp
      have hpos := count_pos hp
      unfold Inv writers readers at h ⊢
      simp only
      cases pc <;> cases a <;> simp only [stepPc, Option.some.injEq, Prod.mk.injEq, reduceCtorEq] at hq
      all_goals first
        | (obtain ⟨rfl, rfl⟩ := hq
           simp only [reduceCtorEq, if_true, if_false] at hX hS
           rcases h with ⟨h1, h2⟩ | ⟨h1, h2, h3⟩
           · first
             | (left; refine ⟨by omega, ?_⟩; omega)
             | omega
           · first
             | (right; refine ⟨by omega, by omega, ?_⟩; omega)
             | (left; refine ⟨by omega, ?_⟩; omega)
             | omega)
        | skip
      all_goals
        split at hq
        all_goals try (split at hq)
        all_goals
          simp only [Option.some.injEq, Prod.mk.injEq] at hq
          obtain ⟨rfl, rfl⟩ := hq
          simp only [reduceCtorEq, if_true, if_false] at hX hS
          rcases h with ⟨h1, h2⟩ | ⟨h1, h2, h3⟩
          · first
            | (left; refine ⟨by omega, ?_⟩; omega)
            | (right; refine ⟨by omega, by omega, by omega⟩)
          · first
            | (right; refine ⟨by omega, by omega, ?_⟩; omega)
            | (simp only [minLong] at h3; omega)

theorem inv_run {s s' : State} {sched : List (Nat × Act)} (h : Inv s) (hr : run s sched = some s') : Inv s' := by
  induction sched generalizing s with
  | nil => simp [run] at hr; subst hr; exact h
  | cons p rest ih =>
    obtain ⟨i, a⟩ := p
    simp only [run] at hr
    cases hs : step s i a with
    | none => rw [hs] at hr; simp at hr
    | some t => rw [hs] at hr; exact ih (inv_step h hs) hr

theorem exclusive_of_inv {s : State} (h : Inv s) : Exclusive s := by
  intro i j hij hi
  have hpos : 0 < writers s := count_pos hi
  rcases h with ⟨h1, _⟩ | ⟨h1, h2, _⟩
  · omega
  · constructor
    · intro hj
      have hc := count_set s.threads i .holdX .idle .holdX hi
      simp only [reduceCtorEq, if_true, if_false] at hc
      have : (s.threads.set i .idle)[j]? = some .holdX := by
        rw [List.getElem?_set_ne hij]; exact hj
      have := count_pos this
      unfold writers at h1
      omega
    · intro hj
      have := count_pos hj
      unfold readers at h2
      omega

/-- **C43** With any number of threads and under every schedule of their lock, try-lock, shared
lock, unlock, upgrade and downgrade steps (including spuriously failing compare-exchanges), at
most one thread is in the exclusive section, and then no thread is in the shared one. -/
theorem C43_mutual_exclusion (n : Nat) (sched : List (Nat × Act)) (s : State)
    (h : run (init n) sched = some s) : Exclusive s :=
  exclusive_of_inv (inv_run (inv_init n) h)

/-- **C43** The lock is never left locked: whenever no thread is inside a section, a thread that
is waiting for the exclusive lock gets it by running alone for two steps. -/
theorem C43_lock_available (n : Nat) (sched : List (Nat × Act)) (s : State)
    (h : run (init n) sched = some s) (hno : ∀ j : Nat, s.threads[j]? ≠ some .holdX ∧ s.threads[j]? ≠ some .holdS)
    (i : Nat) (hi : s.threads[i]? = some .lock0) :
    ∃ s', run s [(i, .go false), (i, .go false)] = some s' ∧ s'.threads[i]? = some .holdX := by
  have hinv := inv_run (inv_init n) h
  have hw : writers s = 0 := by
    unfold writers
    rw [List.count_eq_zero]
    intro hm
    obtain ⟨j, hj⟩ := List.getElem?_of_mem hm
    exact (hno j).1 hj
  have hr : readers s = 0 := by
    unfold readers
    rw [List.count_eq_zero]
    intro hm
    obtain ⟨j, hj⟩ := List.getElem?_of_mem hm
    exact (hno j).2 hj
  have hf : s.flag = 0 := by
    rcases hinv with ⟨_, h2⟩ | ⟨h1, _⟩ <;> omega
  have hlt : i < s.threads.length := by
    rcases Nat.lt_or_ge i s.threads.length with h | h
    · exact h
    · rw [List.getElem?_eq_none h] at hi; simp at hi
  have e1 : step s i (.go false) = some ⟨0, s.threads.set i (.lockLoop 0)⟩ := by
    unfold step; rw [hi]; simp [stepPc, hf]
  have e2 : step ⟨0, s.threads.set i (.lockLoop 0)⟩ i (.go false) =
      some ⟨minLong, (s.threads.set i (.lockLoop 0)).set i .holdX⟩ := by
    unfold step
    simp [hlt, stepPc]
  refine ⟨⟨minLong, (s.threads.set i (.lockLoop 0)).set i .holdX⟩, ?_, ?_⟩
  · simp [run, e1, e2]
  · simp [hlt]

/-- An attempt to take the exclusive lock while a thread is in any section never succeeds. -/
theorem C43_no_entry_while_held (n : Nat) (sched : List (Nat × Act)) (s s' : State)
    (h : run (init n) sched = some s) (i j : Nat) (a : Act) (hij : i ≠ j)
    (hj : s.threads[j]? = some .holdX ∨ s.threads[j]? = some .holdS) (hs : step s i a = some s') :
    s'.threads[i]? ≠ some .holdX := by
  intro hX
  have hinv := inv_step (inv_run (inv_init n) h) hs
  have hj' : s'.threads[j]? = s.threads[j]? := by
    unfold step at hs
    split at hs
    · simp at hs
    · split at hs
      · simp at hs
      · simp only [Option.some.injEq] at hs
        subst hs
        simp only
        exact List.getElem?_set_ne hij
  have := exclusive_of_inv hinv i j hij hX
  rw [hj'] at this
  rcases hj with hj | hj
  · exact this.1 hj
  · exact this.2 hj

/-- Upgrading is not atomic: between a reader and its upgraded exclusive lock another thread can
hold the exclusive lock. (Not part of C43; a fact about `upgrade_to_unique_lock` users should
know.) -/
theorem C43_upgrade_not_atomic : ∃ sched, ∃ s, run (init 2) sched = some s ∧
    s.threads[0]? = some .lock0 ∧ s.threads[1]? = some .holdX ∧
    sched.head? = some (0, .callShared) ∧ (0, Act.upgrade) ∈ sched :=
  ⟨[(0, .callShared), (0, .go false), (0, .go false), (1, .callLock), (0, .upgrade), (1, .go false), (1, .go false)],
    ⟨minLong, [.lock0, .holdX]⟩, by decide, by decide, by decide, by decide, by decide⟩

/-- Non-vacuity: two readers inside, then a writer inside, in a 3-thread run. -/
example : run (init 3) [(0, .callShared), (0, .go false), (1, .callTryShared), (0, .go false), (1, .go true),
    (1, .go false), (0, .unlockShared), (1, .unlockShared), (2, .callLock), (2, .go false), (2, .go false)] =
    some ⟨minLong, [.idle, .idle, .holdX]⟩ := by decide

/-! ### `spin_lock` -/

/-- At most one thread holds the lock. -/
def SExclusive (s : SState) : Prop := ∀ i j : Nat, i ≠ j → s.threads[i]? = some .hold → s.threads[j]? ≠ some .hold

theorem scount_set (l : List SPc) (i : Nat) (p q x : SPc) (h : l[i]? = some p) :
    (l.set i q).count x + (if p = x then 1 else 0) = l.count x + (if q = x then 1 else 0) := by
  induction l generalizing i with
  | nil => simp at h
  | cons a l ih =>
    cases i with
    | zero =>
      simp at h; subst h
      simp only [List.set_cons_zero, List.count_cons, beq_iff_eq]; omega
    | succ i =>
      simp at h
      simp only [List.set_cons_succ, List.count_cons]
      have := ih i h
      omega

def SInv (s : SState) : Prop := s.threads.count .hold = if s.flag then 1 else 0

theorem sinv_step {s : SState} (h : SInv s) (i : Nat) : SInv (sstep s i) := by
  unfold sstep
  cases hp : s.threads[i]? with
  | none => exact h
  | some pc =>
    have hc := scount_set s.threads i pc (sstepPc s.flag pc).2 .hold hp
    have hpos : 0 < s.threads.count pc := List.count_pos_iff.mpr (List.mem_of_getElem? hp)
    unfold SInv at h ⊢
    simp only
    revert hc
    cases pc <;> cases hf : s.flag <;> simp [sstepPc, hf] at h hpos ⊢ <;> omega

/-- **C43** for the plain spin lock. -/
theorem C43_spin_lock_exclusive (n : Nat) (sched : List Nat) : SExclusive (srun (sinit n) sched) := by
  have hinv : ∀ s, SInv s → SInv (srun s sched) := by
    unfold srun
    induction sched with
    | nil => intro s h; exact h
    | cons i l ih => intro s h; exact ih _ (sinv_step h i)
  have h := hinv (sinit n) (by simp [SInv, sinit, List.count_replicate])
  intro i j hij hi hj
  have hc := scount_set _ i .hold .idle .hold hi
  have : ((srun (sinit n) sched).threads.set i .idle)[j]? = some .hold := by
    rw [List.getElem?_set_ne hij]; exact hj
  have hpos : 0 < ((srun (sinit n) sched).threads.set i .idle).count .hold :=
    List.count_pos_iff.mpr (List.mem_of_getElem? this)
  unfold SInv at h
  simp only [reduceCtorEq, if_true, if_false] at hc
  split at h <;> omega

example : (srun (sinit 2) [0, 1, 1, 0, 0]).threads = [.spinning, .hold] := by decide

end Verif.Spinlock
