import Verif.Wrapper.Spec
/-!
Running concrete schedules of the first `n` threads, for examples and witnesses.
-/
namespace Verif.Wrapper

/-- The others do nothing. -/
def Few (n : Nat) (st : State) : Prop := ∀ t, n ≤ t → st.pc t = .idle

/-- Is somebody between looking and sleeping? -/
def isLooked : Pc → Bool
  | .looked _ _ => true
  | _ => false

def freeB (n : Nat) (st : State) : Bool := (List.range n).all fun t => !isLooked (st.pc t)

theorem free_of {n : Nat} {st : State} (hf : Few n st) (h : freeB n st = true) : Free st := by
  intro t s r e
  by_cases ht : t < n
  · have := List.all_eq_true.mp h t (List.mem_range.mpr ht)
    rw [e] at this
    cases this
  · rw [hf t (by omega)] at e; cases e

/-- A step as a function. -/
def exec (n : Nat) (st : State) (a : Act) : Option State :=
  match a with
  | .call t s k =>
    if t < n then
      match st.pc t with
      | .idle => some { st with pc := setPc st.pc t (.init s ⟨k, st.next⟩), next := st.next + 1 }
      | .done _ _ => some { st with pc := setPc st.pc t (.init s ⟨k, st.next⟩), next := st.next + 1 }
      | _ => none
    else none
  | .init t s' => match st.pc t with
    | .init s r => match st.flag s with
      | none => some { st with pc := setPc st.pc t (.send s r), flag := setFlag st.flag s (some false) }
      | some _ => some { st with pc := setPc st.pc t (.init s' r), flag := setFlag st.flag s (some false) }
    | _ => none
  | .send t => match st.pc t with
    | .send s r => some { st with pc := setPc st.pc t (.enter s r), pending := st.pending ++ [(s, r)] }
    | _ => none
  | .look t => if freeB n st then
      match st.pc t with
      | .enter s r => match st.flag s with
        | some true => some (take st t s r)
        | some false => some { st with pc := setPc st.pc t (.looked s r) }
        | none => some { st with pc := setPc st.pc t (.threw r) }
      | _ => none
    else none
  | .sleep t => match st.pc t with
    | .looked s r => some { st with pc := setPc st.pc t (.asleep s r) }
    | _ => none
  | .spurious t => match st.pc t with
    | .asleep s r => some { st with pc := setPc st.pc t (.enter s r) }
    | _ => none
  | .answer i => match st.pending[i]? with
    | some (s, r) => if r.kind = .load ∨ freeB n st = true then some (notify (put { st with pending := st.pending.eraseIdx i } r) s) else none
    | none => none

theorem few_set {n : Nat} {st : State} (hf : Few n st) {t : Nat} (p : Pc) (ht : st.pc t ≠ .idle) : ∀ u, n ≤ u → setPc st.pc t p u = .idle := by
  intro u hu
  unfold setPc
  rw [if_neg]
  · exact hf u hu
  · rintro rfl
    exact ht (hf u hu)

theorem exec_step {n : Nat} {st st' : State} {a : Act} (hf : Few n st) (h : exec n st a = some st') : Step st a st' ∧ Few n st' := by
  cases a with
  | call t s k =>
    simp only [exec] at h
    by_cases ht : t < n
    · rw [if_pos ht] at h
      have few : ∀ u, n ≤ u → setPc st.pc t (.init s ⟨k, st.next⟩) u = .idle := by
        intro u hu
        unfold setPc
        rw [if_neg (by omega)]
        exact hf u hu
      cases hp : st.pc t <;> rw [hp] at h <;> simp only [reduceCtorEq, Option.some.injEq] at h
      · subst h; exact ⟨.call st t s k (.inl hp), few⟩
      · subst h; exact ⟨.call st t s k (.inr ⟨_, _, hp⟩), few⟩
    · rw [if_neg ht] at h; cases h
  | init t s' =>
    simp only [exec] at h
    cases hp : st.pc t <;> rw [hp] at h <;> simp only [reduceCtorEq] at h
    rename_i s r
    cases hfl : st.flag s <;> simp only [hfl, Option.some.injEq] at h <;> subst h
    · exact ⟨.initNew st t s' s r hp hfl, few_set hf _ (by rw [hp]; simp)⟩
    · exact ⟨.initAgain st t s' s r _ hp hfl, few_set hf _ (by rw [hp]; simp)⟩
  | send t =>
    simp only [exec] at h
    cases hp : st.pc t <;> rw [hp] at h <;> simp only [reduceCtorEq, Option.some.injEq] at h
    subst h
    exact ⟨.send st t _ _ hp, few_set hf _ (by rw [hp]; simp)⟩
  | look t =>
    simp only [exec] at h
    by_cases hb : freeB n st = true
    · rw [if_pos hb] at h
      cases hp : st.pc t <;> rw [hp] at h <;> simp only [reduceCtorEq] at h
      rename_i s r
      cases hfl : st.flag s with
      | none =>
        simp only [hfl, Option.some.injEq] at h; subst h
        exact ⟨.lookThrow st t s r hp (free_of hf hb) hfl, few_set hf _ (by rw [hp]; simp)⟩
      | some b =>
        cases b
        · simp only [hfl, Option.some.injEq] at h; subst h
          exact ⟨.lookFalse st t s r hp (free_of hf hb) hfl, few_set hf _ (by rw [hp]; simp)⟩
        · simp only [hfl, Option.some.injEq] at h; subst h
          refine ⟨.lookTrue st t s r hp (free_of hf hb) hfl, ?_⟩
          unfold take
          cases r.kind
          · cases st.cursor <;> exact few_set hf _ (by rw [hp]; simp)
          · exact few_set hf _ (by rw [hp]; simp)
          · exact few_set hf _ (by rw [hp]; simp)
    · rw [if_neg hb] at h; cases h
  | sleep t =>
    simp only [exec] at h
    cases hp : st.pc t <;> rw [hp] at h <;> simp only [reduceCtorEq, Option.some.injEq] at h
    subst h
    exact ⟨.sleep st t _ _ hp, few_set hf _ (by rw [hp]; simp)⟩
  | spurious t =>
    simp only [exec] at h
    cases hp : st.pc t <;> rw [hp] at h <;> simp only [reduceCtorEq, Option.some.injEq] at h
    subst h
    exact ⟨.spurious st t _ _ hp, few_set hf _ (by rw [hp]; simp)⟩
  | answer i =>
    simp only [exec] at h
    cases hp : st.pending[i]? with
    | none => rw [hp] at h; cases h
    | some x =>
      obtain ⟨s, r⟩ := x
      rw [hp] at h
      simp only at h
      by_cases hb : r.kind = .load ∨ freeB n st = true
      · rw [if_pos hb] at h
        cases h
        refine ⟨.answer st i s r hp fun hl => ?_, ?_⟩
        · rcases hb with hb | hb
          · exact absurd hb hl
          · exact free_of hf hb
        · intro u hu
          have : (notify (put { st with pending := st.pending.eraseIdx i } r) s).pc u = wake (st.pc u) := by
            unfold notify put
            cases r.kind <;> rfl
          rw [this, hf u hu]
          rfl
      · rw [if_neg hb] at h; cases h

/-- A schedule as a function. -/
def execAll (n : Nat) (st : State) : List Act → Option State
  | [] => some st
  | a :: as => (exec n st a).bind fun st' => execAll n st' as

theorem execAll_run {n : Nat} {as : List Act} : ∀ {st st' : State}, Few n st → execAll n st as = some st' → Run st as st' := by
  induction as with
  | nil => intro st st' _ h; cases h; exact .nil _
  | cons a as ih =>
    intro st st' hf h
    simp only [execAll] at h
    cases he : exec n st a with
    | none => rw [he] at h; cases h
    | some st1 =>
      rw [he] at h
      obtain ⟨h1, h2⟩ := exec_step hf he
      exact .cons h1 (ih h2 h)

theorem execAll_few {n : Nat} {as : List Act} : ∀ {st st' : State}, Few n st → execAll n st as = some st' → Few n st' := by
  induction as with
  | nil => intro st st' hf h; cases h; exact hf
  | cons a as ih =>
    intro st st' hf h
    simp only [execAll] at h
    cases he : exec n st a with
    | none => rw [he] at h; cases h
    | some st1 =>
      rw [he] at h
      exact ih (exec_step hf he).2 h

/-- The sessions and requests waited for by the first `n` threads. -/
def waiting (n : Nat) (st : State) : List (Sess × Req) := (List.range n).filterMap fun t => (st.pc t).waits

theorem mem_waiting {n : Nat} {st : State} (hf : Few n st) {t : Nat} {x : Sess × Req} (h : (st.pc t).waits = some x) : x ∈ waiting n st := by
  refine List.mem_filterMap.mpr ⟨t, List.mem_range.mpr ?_, h⟩
  refine Nat.lt_of_not_le fun hn => ?_
  rw [hf t hn] at h
  cases h

/-- The conditions on schedules as functions. -/
def freshB (n : Nat) (st : State) (a : Act) : Bool :=
  match a with
  | .init t _ => match st.pc t with
    | .init s _ => (waiting n st).all fun x => decide (x.1 = s → x ∈ st.pending)
    | _ => true
  | _ => true

def oneB (n : Nat) (st : State) (a : Act) : Bool :=
  match a with
  | .answer i => match st.pending[i]? with
    | some (_, r) => (waiting n st).all fun x => decide (x.2.kind = r.kind → x ∈ st.pending)
    | none => true
  | _ => true

def noLoadB (a : Act) : Bool :=
  match a with
  | .call _ _ k => decide (k ≠ .load)
  | _ => true

theorem fresh_of {n : Nat} {st : State} {a : Act} (hf : Few n st) (h : freshB n st a = true) : FreshSession st a := by
  cases a with
  | init t s' =>
    intro s r hp t' r' hw
    simp only [freshB, hp] at h
    have := List.all_eq_true.mp h _ (mem_waiting hf hw)
    exact of_decide_eq_true this rfl
  | _ => trivial

theorem one_of {n : Nat} {st : State} {a : Act} (hf : Few n st) (h : oneB n st a = true) : OneAnswer st a := by
  cases a with
  | answer i =>
    intro s r hp t s' r' hw hk
    simp only [oneB, hp] at h
    have := List.all_eq_true.mp h _ (mem_waiting hf hw)
    exact of_decide_eq_true this hk
  | _ => trivial

theorem noLoad_of {a : Act} (h : noLoadB a = true) : NoLoad a := by
  cases a with
  | call t s k => exact of_decide_eq_true (p := k ≠ .load) h
  | _ => trivial

/-- A schedule whose steps are tested. -/
def execIf (n : Nat) (ok : State → Act → Bool) (st : State) : List Act → Option State
  | [] => some st
  | a :: as => if ok st a then (exec n st a).bind fun st' => execIf n ok st' as else none

theorem execIf_run {n : Nat} {ok : State → Act → Bool} {P : State → Act → Prop} (hok : ∀ st a, Few n st → ok st a = true → P st a)
    {as : List Act} : ∀ {st st' : State}, Few n st → execIf n ok st as = some st' → RunIf P st as st' := by
  induction as with
  | nil => intro st st' _ h; cases h; exact .nil _
  | cons a as ih =>
    intro st st' hf h
    simp only [execIf] at h
    by_cases hb : ok st a = true
    · rw [if_pos hb] at h
      cases he : exec n st a with
      | none => rw [he] at h; cases h
      | some st1 =>
        rw [he] at h
        obtain ⟨h1, h2⟩ := exec_step hf he
        exact .cons (hok st a hf hb) h1 (ih h2 h)
    · rw [if_neg hb] at h; cases h

end Verif.Wrapper
