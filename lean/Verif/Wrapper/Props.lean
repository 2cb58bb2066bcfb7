import Verif.Wrapper.Lemmas
import Verif.Wrapper.Exec
/-!
C50: every client gets the answer to its own request.  C51: a client whose answer has arrived gets it.
-/
namespace Verif.Wrapper

/-- The full claim of C50: in every run, every call that returned gave the answer to its own request, and none failed. -/
def C50_claim : Prop := ∀ as st', Run State.start as st' → Right st'

/-- Any number of threads, any schedule: as long as answers of a kind arrive one after the other, each after the one before
was picked up, and nobody uses the session of a call that was answered and has not returned yet, everybody gets the answer
to their own request. -/
theorem C50_own_answer_partial (as : List Act) (st' : State)
    (h : RunIf (fun st a => FreshSession st a ∧ OneAnswer st a) State.start as st') : Right st' :=
  (run_right base_start slots_start h).2.right

/-- The thread returns, by steps of the threads that are waiting and without another answer or a spurious wake-up. -/
def Returns (st : State) (t : Nat) : Prop :=
  ∃ as st', (∀ a ∈ as, ∃ u, a = .look u ∨ a = .sleep u) ∧ Run st as st' ∧ Back st' t

/-- The full claim of C51. -/
def C51_claim : Prop := ∀ as st' t, Run State.start as st' → Answered st' t → Returns st' t

/-- Any number of threads, any schedule without `load`: a client whose answer has arrived returns, if nobody uses the
session of a call that was answered and has not returned yet. -/
theorem C51_returns_partial (as : List Act) (st' : State) (t : Nat)
    (h : RunIf (fun st a => FreshSession st a ∧ NoLoad a) State.start as st') (ha : Answered st' t) : Returns st' t := by
  obtain ⟨B, A⟩ := run_awake base_start awake_start h
  obtain ⟨bs, st'', h1, h2, h3⟩ := can_return B A t ha
  refine ⟨bs, st'', fun a hm => ?_, h2, h3⟩
  rcases h1 a hm with h | ⟨u, h⟩
  · exact ⟨t, .inl h⟩
  · exact ⟨u, .inr h⟩

/-! ### cases -/

/-- Two requests, sent at the same time, the second one answered first. -/
def inTurn : List Act :=
  [.call 0 1 .plan, .init 0 9, .call 1 2 .plan, .init 1 9, .send 0, .send 1, .look 0, .sleep 0, .answer 1, .look 1, .answer 0, .look 0]

theorem few_start (n : Nat) : Few n State.start := fun _ _ => rfl

/-- What two threads and their flags look like. -/
def view (st : State) : Pc × Pc := (st.pc 0, st.pc 1)

example : ∃ st', RunIf (fun st a => FreshSession st a ∧ OneAnswer st a) State.start inTurn st' ∧
    st'.pc 0 = .done ⟨.plan, 0⟩ (.cursor 0) ∧ st'.pc 1 = .done ⟨.plan, 1⟩ (.cursor 1) := by
  have h : (execIf 2 (fun st a => freshB 2 st a && oneB 2 st a) State.start inTurn).map view =
      some (.done ⟨.plan, 0⟩ (.cursor 0), .done ⟨.plan, 1⟩ (.cursor 1)) := by decide +kernel
  obtain ⟨st', h1, h2⟩ := Option.map_eq_some_iff.mp h
  cases h2' : view st' with
  | mk a b =>
    simp only [view, Prod.mk.injEq] at h2
    refine ⟨st', execIf_run (fun st a hf hb => ?_) (few_start 2) h1, h2.1, h2.2⟩
    simp only [Bool.and_eq_true] at hb
    exact ⟨fresh_of hf hb.1, one_of hf hb.2⟩

/-- A waiting client whose answer has just arrived while the other one is about to sleep. -/
def arrived : List Act :=
  [.call 0 1 .plan, .init 0 9, .call 1 2 .size, .init 1 9, .send 0, .send 1, .look 0, .sleep 0, .answer 0, .look 1]

example : ∃ st', RunIf (fun st a => FreshSession st a ∧ NoLoad a) State.start arrived st' ∧ Answered st' 0 ∧ ¬ Free st' ∧ Returns st' 0 := by
  have h : (execIf 2 (fun st a => freshB 2 st a && noLoadB a) State.start arrived).map (fun st => (st.pc 0, st.pc 1, st.pending)) =
      some (.enter 1 ⟨.plan, 0⟩, .looked 2 ⟨.size, 1⟩, [(2, ⟨.size, 1⟩)]) := by decide +kernel
  obtain ⟨st', h1, h2⟩ := Option.map_eq_some_iff.mp h
  simp only [Prod.mk.injEq] at h2
  have hr : RunIf (fun st a => FreshSession st a ∧ NoLoad a) State.start arrived st' := by
    refine execIf_run (fun st a hf hb => ?_) (few_start 2) h1
    simp only [Bool.and_eq_true] at hb
    exact ⟨fresh_of hf hb.1, noLoad_of hb.2⟩
  have ha : Answered st' 0 := ⟨1, ⟨.plan, 0⟩, by rw [h2.1]; rfl, by rw [h2.2.2]; decide⟩
  exact ⟨st', hr, ha, fun hf => hf 1 _ _ h2.2.1, C51_returns_partial _ _ _ hr ha⟩

/-! ### what goes wrong -/

/-- Two clients at once: the answers arrive before the first one looks. -/
def swapped : List Act :=
  [.call 0 1 .plan, .init 0 9, .call 1 2 .plan, .init 1 9, .send 0, .send 1, .answer 0, .answer 0, .look 0, .look 1]

/-- The first client gets the second one's answer, the second one a null pointer. -/
theorem C50_fails : ¬ C50_claim ∧ ∃ st', Run State.start swapped st' ∧ st'.pc 0 = .done ⟨.plan, 0⟩ (.cursor 1) ∧ st'.pc 1 = .crashed ⟨.plan, 1⟩ := by
  have h : (execAll 2 State.start swapped).map view = some (.done ⟨.plan, 0⟩ (.cursor 1), .crashed ⟨.plan, 1⟩) := by decide +kernel
  obtain ⟨st', h1, h2⟩ := Option.map_eq_some_iff.mp h
  simp only [view, Prod.mk.injEq] at h2
  have hr := execAll_run (few_start 2) h1
  exact ⟨fun hc => (hc _ _ hr 1).2.1 _ h2.2, st', hr, h2.1, h2.2⟩

/-- Two sizes asked for at once: both clients get the later answer. -/
theorem C50_size_fails : ¬ C50_claim ∧ ∃ st', Run State.start
    [.call 0 1 .size, .init 0 9, .call 1 2 .size, .init 1 9, .send 0, .send 1, .answer 0, .answer 0, .look 0, .look 1] st' ∧
    st'.pc 0 = .done ⟨.size, 0⟩ (.size (some 1)) ∧ st'.pc 1 = .done ⟨.size, 1⟩ (.size (some 1)) := by
  have h : (execAll 2 State.start
      [.call 0 1 .size, .init 0 9, .call 1 2 .size, .init 1 9, .send 0, .send 1, .answer 0, .answer 0, .look 0, .look 1]).map view =
      some (.done ⟨.size, 0⟩ (.size (some 1)), .done ⟨.size, 1⟩ (.size (some 1))) := by decide +kernel
  obtain ⟨st', h1, h2⟩ := Option.map_eq_some_iff.mp h
  simp only [view, Prod.mk.injEq] at h2
  have hr := execAll_run (few_start 2) h1
  refine ⟨fun hc => ?_, st', hr, h2.1, h2.2⟩
  have := (hc _ _ hr 0).1 _ _ h2.1
  simp [Req.own] at this

/-- A thread that sleeps is not woken by others looking and going to sleep. -/
theorem stays_asleep {st st' : State} {as : List Act} {t : Nat} {s : Sess} {r : Req} (h : Run st as st')
    (ha : ∀ a ∈ as, ∃ u, a = .look u ∨ a = .sleep u) (hs : st.pc t = .asleep s r) : st'.pc t = .asleep s r := by
  induction h with
  | nil => exact hs
  | cons h _ ih =>
    rename_i st a st1 as st2 _
    refine ih (fun a hm => ha a (by simp [hm])) ?_
    obtain ⟨u, hu⟩ := ha a (by simp)
    have hne : ∀ p, st.pc u = p → (∀ s r, p ≠ .asleep s r) → t ≠ u := by
      rintro p hp hn rfl
      rw [hs] at hp
      exact hn s r hp.symm
    rcases hu with hu | hu
    · subst hu
      cases h with
      | lookTrue _ s' r' h hm hf' =>
        obtain ⟨p, c, e, _⟩ := take_pc st u s' r'
        rw [e]
        simp only [setPc, if_neg (hne _ h (by simp))]
        exact hs
      | lookFalse _ s' r' h hm hf' => simp only [setPc, if_neg (hne _ h (by simp))]; exact hs
      | lookThrow _ s' r' h hm hf' => simp only [setPc, if_neg (hne _ h (by simp))]; exact hs
    · subst hu
      cases h with
      | sleep _ s' r' h => simp only [setPc, if_neg (hne _ h (by simp))]; exact hs

/-- `load`: the answer arrives after the client looked and before it sleeps; nobody wakes it up. -/
theorem C51_load_fails : ¬ C51_claim ∧ ∃ st', Run State.start [.call 0 1 .load, .init 0 9, .send 0, .look 0, .answer 0, .sleep 0] st' ∧
    Answered st' 0 ∧ ¬ Returns st' 0 := by
  have h : (execAll 2 State.start [.call 0 1 .load, .init 0 9, .send 0, .look 0, .answer 0, .sleep 0]).map (fun st => (st.pc 0, st.pending)) =
      some (.asleep 1 ⟨.load, 0⟩, []) := by decide +kernel
  obtain ⟨st', h1, h2⟩ := Option.map_eq_some_iff.mp h
  simp only [Prod.mk.injEq] at h2
  have hr := execAll_run (few_start 2) h1
  have ha : Answered st' 0 := ⟨1, ⟨.load, 0⟩, by rw [h2.1]; rfl, by rw [h2.2]; simp⟩
  have hn : ¬ Returns st' 0 := by
    rintro ⟨as, st'', g1, g2, g3⟩
    have := stays_asleep g2 g1 h2.1
    unfold Back at g3
    rw [this] at g3
    cases g3
  exact ⟨fun hc => hn (hc _ _ _ hr ha), st', hr, ha, hn⟩

/-- A thread whose flag was reset looks and sleeps for ever. -/
theorem stays_waiting {st st' : State} {as : List Act} {s : Sess} {r : Req} (h : Run st as st')
    (ha : ∀ a ∈ as, ∃ u, a = .look u ∨ a = .sleep u) (hw : (st.pc 0).waits = some (s, r)) (hf : st.flag s = some false)
    (ho : ∀ u, u ≠ 0 → (st.pc u).waits = none) : (st'.pc 0).waits = some (s, r) := by
  induction h with
  | nil => exact hw
  | cons h _ ih =>
    rename_i st a st1 as st2 _
    have ha1 := ha a (by simp)
    have key : (st1.pc 0).waits = some (s, r) ∧ st1.flag s = some false ∧ ∀ u, u ≠ 0 → (st1.pc u).waits = none := by
      have u0 : ∀ u, (st.pc u).waits ≠ none → u = 0 := fun u hu => by
        by_contra e
        exact hu (ho u e)
      obtain ⟨u, hu | hu⟩ := ha1
      · subst hu
        cases h with
        | lookTrue _ s' r' h hm hf' =>
          have : u = 0 := u0 u (by rw [h]; simp [Pc.waits])
          subst this
          rw [h] at hw
          cases hw
          rw [hf] at hf'; cases hf'
        | lookFalse _ s' r' h hm hf' =>
          have : u = 0 := u0 u (by rw [h]; simp [Pc.waits])
          subst this
          rw [h] at hw
          refine ⟨by simp only [setPc]; exact hw, hf, fun v hv => ?_⟩
          simp only [setPc, if_neg hv]
          exact ho v hv
        | lookThrow _ s' r' h hm hf' =>
          have : u = 0 := u0 u (by rw [h]; simp [Pc.waits])
          subst this
          rw [h] at hw
          cases hw
          rw [hf] at hf'; cases hf'
      · subst hu
        cases h with
        | sleep _ s' r' h =>
          have : u = 0 := u0 u (by rw [h]; simp [Pc.waits])
          subst this
          rw [h] at hw
          refine ⟨by simp only [setPc]; exact hw, hf, fun v hv => ?_⟩
          simp only [setPc, if_neg hv]
          exact ho v hv
    exact ih (fun a hm => ha a (by simp [hm])) key.1 key.2.1 key.2.2

/-- A second thread calls with the session of the first one after its answer has arrived: the arrival is forgotten. -/
theorem C51_session_fails : ¬ C51_claim ∧ ∃ st', Run State.start [.call 0 1 .plan, .init 0 9, .send 0, .answer 0, .call 1 1 .plan, .init 1 9] st' ∧
    Answered st' 0 ∧ ¬ Returns st' 0 := by
  have h : (execAll 2 State.start [.call 0 1 .plan, .init 0 9, .send 0, .answer 0, .call 1 1 .plan, .init 1 9]).map
      (fun st => (st.pc 0, st.pc 1, st.flag 1, st.pending)) = some (.enter 1 ⟨.plan, 0⟩, .init 9 ⟨.plan, 1⟩, some false, []) := by decide +kernel
  obtain ⟨st', h1, h2⟩ := Option.map_eq_some_iff.mp h
  simp only [Prod.mk.injEq] at h2
  have hr := execAll_run (few_start 2) h1
  have hfew : Few 2 st' := execAll_few (few_start 2) h1
  have ha : Answered st' 0 := ⟨1, ⟨.plan, 0⟩, by rw [h2.1]; rfl, by rw [h2.2.2.2]; simp⟩
  have hn : ¬ Returns st' 0 := by
    rintro ⟨as, st'', g1, g2, g3⟩
    have := stays_waiting g2 g1 (by rw [h2.1]; rfl) h2.2.2.1 (fun u hu => by
      by_cases e : u = 1
      · subst e; rw [h2.2.1]; rfl
      · rw [hfew u (by omega)]; rfl)
    unfold Back at g3
    rw [this] at g3
    cases g3
  exact ⟨fun hc => hn (hc _ _ _ hr ha), st', hr, ha, hn⟩

end Verif.Wrapper
