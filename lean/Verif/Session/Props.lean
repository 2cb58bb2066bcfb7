import Verif.Session.Model
/-!
C52: no two sessions are the same.
-/
namespace Verif.Session

/-- The full claim: fewer than 2^64 sessions are all different. -/
def C52_claim : Prop :=
  ∀ as st', run State.start as = some st' → st'.counter < 2 ^ 64 → (st'.made.map Made.id).Pairwise (· ≠ ·)

/-- The counter as it was when each session under way or made was begun. -/
structure Inv (st : State) (lo : Nat → Nat) : Prop where
  le : ∀ m ∈ st.made, m.id.counter ≤ st.counter
  gt : ∀ m ∈ st.made, lo m.start < m.id.counter
  old : ∀ m ∈ st.made, ∀ b, m.stop < b → b < st.now → m.id.counter ≤ lo b
  before : ∀ b < st.now, lo b ≤ st.counter
  stop : ∀ m ∈ st.made, m.start < m.stop ∧ m.stop < st.now
  begun : ∀ t b, st.pc t = .begun b → b < st.now
  added : ∀ t b, st.pc t = .added b → b < st.now ∧ lo b < st.counter
  read : ∀ t b c, st.pc t = .read b c → b < st.now ∧ lo b < c ∧ c ≤ st.counter

/-- The lower bounds, extended by the present moment. -/
def extend (lo : Nat → Nat) (st : State) : Nat → Nat := fun b => if b = st.now then st.counter else lo b

theorem inv_step {st st' : State} {lo : Nat → Nat} {a : Act} (I : Inv st lo) (h : step st a = some st') (hb : st'.counter < 2 ^ 64) :
    Inv st' (extend lo st) := by
  have E : ∀ b, b < st.now → extend lo st b = lo b := fun b hb => if_neg (by omega)
  have Enow : extend lo st st.now = st.counter := if_pos rfl
  have pcs : ∀ (p : Pc) t u, setPc st.pc t p u = p ∧ u = t ∨ setPc st.pc t p u = st.pc u := by
    intro p t u
    unfold setPc
    by_cases e : u = t
    · exact .inl ⟨if_pos e, e⟩
    · exact .inr (if_neg e)
  have gt : ∀ m ∈ st.made, extend lo st m.start < m.id.counter := by
    intro m hm
    rw [E _ (by have := I.stop m hm; omega)]
    exact I.gt m hm
  have old : ∀ m ∈ st.made, ∀ b, m.stop < b → b < st.now + 1 → m.id.counter ≤ extend lo st b := by
    intro m hm b h1 h2
    by_cases e : b = st.now
    · rw [e, Enow]; exact I.le m hm
    · rw [E b (by omega)]; exact I.old m hm b h1 (by omega)
  have before : ∀ b < st.now + 1, extend lo st b ≤ st.counter := by
    intro b hb
    by_cases e : b = st.now
    · rw [e, Enow]; exact Nat.le_refl _
    · rw [E b (by omega)]; exact I.before b (by omega)
  have stop : ∀ m ∈ st.made, m.start < m.stop ∧ m.stop < st.now + 1 := fun m hm => by have := I.stop m hm; omega
  have begun : ∀ t b, st.pc t = .begun b → b < st.now + 1 := fun t b h => by have := I.begun t b h; omega
  have added : ∀ t b, st.pc t = .added b → b < st.now + 1 ∧ extend lo st b < st.counter := fun t b h => by
    have := I.added t b h
    rw [E b this.1]; omega
  have rd : ∀ t b c, st.pc t = .read b c → b < st.now + 1 ∧ extend lo st b < c ∧ c ≤ st.counter := fun t b c h => by
    have := I.read t b c h
    rw [E b this.1]; omega
  cases a with
  | enter t =>
    simp only [step] at h
    cases hp : st.pc t <;> rw [hp] at h <;> simp only [reduceCtorEq, Option.some.injEq] at h
    subst h
    refine ⟨I.le, gt, old, before, stop, fun u b hu => ?_, fun u b hu => ?_, fun u b c hu => ?_⟩
    · rcases pcs (.begun st.now) t u with ⟨e, _⟩ | e
      · rw [show setPc st.pc t (.begun st.now) u = .begun b from hu] at e
        injection e with e
        show b < st.now + 1
        omega
      · exact begun u b (e.symm.trans hu)
    · rcases pcs (.begun st.now) t u with ⟨e, _⟩ | e
      · rw [show setPc st.pc t (.begun st.now) u = .added b from hu] at e; cases e
      · exact added u b (e.symm.trans hu)
    · rcases pcs (.begun st.now) t u with ⟨e, _⟩ | e
      · rw [show setPc st.pc t (.begun st.now) u = .read b c from hu] at e; cases e
      · exact rd u b c (e.symm.trans hu)
  | add t =>
    simp only [step] at h
    cases hp : st.pc t with
    | begun b0 =>
      rw [hp] at h
      simp only [Option.some.injEq] at h
      subst h
      refine ⟨fun m hm => Nat.le_succ_of_le (I.le m hm), gt, old, fun b hb => Nat.le_succ_of_le (before b hb), stop, fun u b hu => ?_,
        fun u b hu => ?_, fun u b c hu => ?_⟩
      · rcases pcs (.added b0) t u with ⟨e, _⟩ | e
        · rw [show setPc st.pc t (.added b0) u = .begun b from hu] at e; cases e
        · exact begun u b (e.symm.trans hu)
      · rcases pcs (.added b0) t u with ⟨e, _⟩ | e
        · rw [show setPc st.pc t (.added b0) u = .added b from hu] at e
          injection e with e
          subst e
          have h1 := I.begun t b hp
          have h2 := before b (by omega)
          show b < st.now + 1 ∧ _ < st.counter + 1
          omega
        · have := added u b (e.symm.trans hu)
          show b < st.now + 1 ∧ _ < st.counter + 1
          omega
      · rcases pcs (.added b0) t u with ⟨e, _⟩ | e
        · rw [show setPc st.pc t (.added b0) u = .read b c from hu] at e; cases e
        · have := rd u b c (e.symm.trans hu)
          show b < st.now + 1 ∧ _ < c ∧ c ≤ st.counter + 1
          omega
    | _ => rw [hp] at h; cases h
  | read t =>
    simp only [step] at h
    cases hp : st.pc t with
    | added b0 =>
      rw [hp] at h
      simp only [Option.some.injEq] at h
      subst h
      have hb' : st.counter < 2 ^ 64 := hb
      rw [Nat.mod_eq_of_lt hb']
      refine ⟨I.le, gt, old, before, stop, fun u b hu => ?_, fun u b hu => ?_, fun u b c hu => ?_⟩
      · rcases pcs (.read b0 st.counter) t u with ⟨e, _⟩ | e
        · rw [show setPc st.pc t (.read b0 st.counter) u = .begun b from hu] at e; cases e
        · exact begun u b (e.symm.trans hu)
      · rcases pcs (.read b0 st.counter) t u with ⟨e, _⟩ | e
        · rw [show setPc st.pc t (.read b0 st.counter) u = .added b from hu] at e; cases e
        · exact added u b (e.symm.trans hu)
      · rcases pcs (.read b0 st.counter) t u with ⟨e, _⟩ | e
        · rw [show setPc st.pc t (.read b0 st.counter) u = .read b c from hu] at e
          injection e with e1 e2
          subst e1 e2
          have := added t b hp
          exact ⟨this.1, this.2, Nat.le_refl _⟩
        · exact rd u b c (e.symm.trans hu)
    | _ => rw [hp] at h; cases h
  | leave t time =>
    simp only [step] at h
    cases hp : st.pc t with
    | read b0 c0 =>
      rw [hp] at h
      simp only [Option.some.injEq] at h
      subst h
      have hr := rd t b0 c0 hp
      have hr0 := I.read t b0 c0 hp
      refine ⟨fun m hm => ?_, fun m hm => ?_, fun m hm => ?_, before, fun m hm => ?_, fun u b hu => ?_, fun u b hu => ?_, fun u b c hu => ?_⟩
      · rcases List.mem_append.mp hm with hm | hm
        · exact I.le m hm
        · simp only [List.mem_cons, List.not_mem_nil, or_false] at hm
          subst hm
          exact hr.2.2
      · rcases List.mem_append.mp hm with hm | hm
        · exact gt m hm
        · simp only [List.mem_cons, List.not_mem_nil, or_false] at hm
          subst hm
          exact hr.2.1
      · rcases List.mem_append.mp hm with hm | hm
        · exact old m hm
        · simp only [List.mem_cons, List.not_mem_nil, or_false] at hm
          subst hm
          intro b h1 h2
          have h2' : b < st.now + 1 := h2
          have h1' : st.now < b := h1
          omega
      · rcases List.mem_append.mp hm with hm | hm
        · exact stop m hm
        · simp only [List.mem_cons, List.not_mem_nil, or_false] at hm
          subst hm
          exact ⟨hr0.1, Nat.lt_succ_self _⟩
      · rcases pcs .out t u with ⟨e, _⟩ | e
        · rw [show setPc st.pc t .out u = .begun b from hu] at e; cases e
        · exact begun u b (e.symm.trans hu)
      · rcases pcs .out t u with ⟨e, _⟩ | e
        · rw [show setPc st.pc t .out u = .added b from hu] at e; cases e
        · exact added u b (e.symm.trans hu)
      · rcases pcs .out t u with ⟨e, _⟩ | e
        · rw [show setPc st.pc t .out u = .read b c from hu] at e; cases e
        · exact rd u b c (e.symm.trans hu)
    | _ => rw [hp] at h; cases h

theorem counter_mono {st st' : State} {a : Act} (h : step st a = some st') : st.counter ≤ st'.counter := by
  cases a with
  | enter t => simp only [step] at h; cases hp : st.pc t <;> rw [hp] at h <;> cases h; exact Nat.le_refl _
  | add t => simp only [step] at h; cases hp : st.pc t <;> rw [hp] at h <;> cases h; exact Nat.le_succ _
  | read t => simp only [step] at h; cases hp : st.pc t <;> rw [hp] at h <;> cases h; exact Nat.le_refl _
  | leave t time => simp only [step] at h; cases hp : st.pc t <;> rw [hp] at h <;> cases h; exact Nat.le_refl _

theorem run_mono {as : List Act} : ∀ {st st' : State}, run st as = some st' → st.counter ≤ st'.counter := by
  induction as with
  | nil => intro st st' h; cases h; exact Nat.le_refl _
  | cons a as ih =>
    intro st st' h
    simp only [run] at h
    cases hs : step st a with
    | none => rw [hs] at h; cases h
    | some st1 => rw [hs] at h; exact Nat.le_trans (counter_mono hs) (ih h)

theorem inv_run {as : List Act} : ∀ {st st' : State} {lo}, Inv st lo → run st as = some st' → st'.counter < 2 ^ 64 → ∃ lo', Inv st' lo' := by
  induction as with
  | nil => intro st st' lo I h _; cases h; exact ⟨lo, I⟩
  | cons a as ih =>
    intro st st' lo I h hb
    simp only [run] at h
    cases hs : step st a with
    | none => rw [hs] at h; cases h
    | some st1 =>
      rw [hs] at h
      exact ih (inv_step I hs (Nat.lt_of_le_of_lt (run_mono h) hb)) h hb

/-- Any number of threads, any schedule, whatever the clock says: two of fewer than 2^64 sessions are different if the
making of one ended before the making of the other began. -/
theorem C52_one_after_the_other_partial (as : List Act) (st' : State) (h : run State.start as = some st') (hb : st'.counter < 2 ^ 64)
    (m n : Made) (hm : m ∈ st'.made) (hn : n ∈ st'.made) (ho : m.stop < n.start) : m.id ≠ n.id := by
  have I0 : Inv State.start (fun _ => 0) := by
    constructor <;> simp [State.start]
  obtain ⟨lo, I⟩ := inv_run I0 h hb
  intro e
  have h1 := I.old m hm n.start ho (by have := I.stop n hn; omega)
  have h2 := I.gt n hn
  rw [e] at h1
  omega

/-- One thread, one session after the other, while another thread comes in between. -/
def turns : List Act :=
  [.enter 0, .add 0, .enter 1, .read 0, .leave 0 5, .add 1, .enter 0, .add 0, .read 1, .read 0, .leave 0 5, .leave 1 5]

example : ((run State.start turns).map fun st => st.made.map fun m => (m.start, m.stop, m.id.data, m.id.counter)) =
    some [(0, 4, 5, 1), (6, 10, 5, 3), (2, 11, 5, 3)] := by rfl

/-- Two threads: both add before either reads. -/
theorem C52_fails : ¬ C52_claim := by
  intro hc
  have h := hc [.enter 0, .enter 1, .add 0, .add 1, .read 0, .read 1, .leave 0 5, .leave 1 5] _ rfl (by decide)
  simp [setPc, State.start] at h

end Verif.Session
