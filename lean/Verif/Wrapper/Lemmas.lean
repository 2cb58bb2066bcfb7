import Verif.Wrapper.Spec
import Mathlib.Data.List.Nodup
/-!
Invariants.
-/
namespace Verif.Wrapper

/-- The session a thread has registered. -/
def Pc.holds : Pc → Option Sess
  | .send s _ => some s
  | p => p.waits.map Prod.fst

theorem waits_wake (p : Pc) : (wake p).waits = p.waits := by cases p <;> rfl

theorem holds_wake (p : Pc) : (wake p).holds = p.holds := by cases p <;> rfl

theorem wake_done {p : Pc} {r a} (h : wake p = .done r a) : p = .done r a := by cases p <;> simp_all [wake]

theorem wake_crashed {p : Pc} {r} (h : wake p = .crashed r) : p = .crashed r := by cases p <;> simp_all [wake]

theorem wake_threw {p : Pc} {r} (h : wake p = .threw r) : p = .threw r := by cases p <;> simp_all [wake]

theorem wake_send {p : Pc} {s r} (h : wake p = .send s r) : p = .send s r := by cases p <;> simp_all [wake]

theorem holds_of_waits {p : Pc} {s r} (h : p.waits = some (s, r)) : p.holds = some s := by
  cases p <;> simp_all [Pc.waits, Pc.holds]

/-- Flags, sessions and pending requests fit together. -/
structure Base (st : State) : Prop where
  wait : ∀ t s r, (st.pc t).waits = some (s, r) → st.flag s = some (decide ((s, r) ∉ st.pending))
  send : ∀ t s r, st.pc t = .send s r → st.flag s = some false ∧ ∀ r', (s, r') ∉ st.pending
  uniq : ∀ t t' s, (st.pc t).holds = some s → (st.pc t').holds = some s → t = t'
  pend : ∀ s r, (s, r) ∈ st.pending → ∃ t, (st.pc t).waits = some (s, r)
  nodup : (st.pending.map Prod.fst).Nodup

theorem base_start : Base State.start :=
  ⟨by simp [State.start, Pc.waits], by simp [State.start], by simp [State.start, Pc.holds, Pc.waits], by simp [State.start],
    by simp [State.start]⟩

/-- A step of one thread that changes what it neither waits for nor holds. -/
theorem Base.move {st : State} (B : Base st) (t : Nat) (p : Pc) (hw : p.waits = (st.pc t).waits) (hh : p.holds = (st.pc t).holds)
    (hs : ∀ s r, p ≠ .send s r) : Base { st with pc := setPc st.pc t p } := by
  have W : ∀ u, (setPc st.pc t p u).waits = (st.pc u).waits := by
    intro u
    unfold setPc
    by_cases h : u = t
    · rw [if_pos h, hw, h]
    · rw [if_neg h]
  have H : ∀ u, (setPc st.pc t p u).holds = (st.pc u).holds := by
    intro u
    unfold setPc
    by_cases h : u = t
    · rw [if_pos h, hh, h]
    · rw [if_neg h]
  refine ⟨fun u s r h => ?_, fun u s r h => ?_, fun u u' s h h' => ?_, fun s r h => ?_, B.nodup⟩
  · simp only [W] at h
    exact B.wait u s r h
  · simp only [setPc] at h
    by_cases hu : u = t
    · rw [if_pos hu] at h
      exact absurd h (hs s r)
    · rw [if_neg hu] at h
      exact B.send u s r h
  · simp only [H] at h h'
    exact B.uniq u u' s h h'
  · obtain ⟨u, hu⟩ := B.pend s r h
    exact ⟨u, by simp only [W]; exact hu⟩

/-- A thread gives its session back. -/
theorem Base.give {st : State} (B : Base st) (t : Nat) (s : Sess) (r : Req) (p : Pc) (hw : (st.pc t).waits = some (s, r))
    (hp : p.holds = none) (hf : st.flag s = some true) (c z : Option Nat) :
    Base { st with pc := setPc st.pc t p, flag := setFlag st.flag s none, cursor := c, size := z } := by
  have hpw : p.waits = none := by
    cases h : p.waits with
    | none => rfl
    | some x => obtain ⟨a, b⟩ := x; rw [holds_of_waits h] at hp; cases hp
  have hps : ∀ s r, p ≠ .send s r := by rintro s r rfl; simp [Pc.holds] at hp
  have hnp : ∀ r', (s, r') ∉ st.pending := by
    intro r' hr'
    obtain ⟨u, hu⟩ := B.pend s r' hr'
    have := B.uniq u t s (holds_of_waits hu) (holds_of_waits hw)
    subst this
    have e := B.wait u s r' hu
    rw [hf] at e
    simp [hr'] at e
  refine ⟨fun u x y h => ?_, fun u x y h => ?_, fun u u' x h h' => ?_, fun x y h => ?_, B.nodup⟩
  · simp only [setPc] at h
    by_cases hu : u = t
    · rw [if_pos hu, hpw] at h; cases h
    · rw [if_neg hu] at h
      have hx : x ≠ s := by
        rintro rfl
        exact hu (B.uniq u t x (holds_of_waits h) (holds_of_waits hw))
      simp only [setFlag, if_neg hx]
      exact B.wait u x y h
  · simp only [setPc] at h
    by_cases hu : u = t
    · rw [if_pos hu] at h; exact absurd h (hps x y)
    · rw [if_neg hu] at h
      have hx : x ≠ s := by
        rintro rfl
        exact hu (B.uniq u t x (by rw [h]; rfl) (holds_of_waits hw))
      simp only [setFlag, if_neg hx]
      exact B.send u x y h
  · simp only [setPc] at h h'
    by_cases hu : u = t
    · rw [if_pos hu, hp] at h; cases h
    · by_cases hu' : u' = t
      · rw [if_pos hu', hp] at h'; cases h'
      · rw [if_neg hu] at h
        rw [if_neg hu'] at h'
        exact B.uniq u u' x h h'
  · obtain ⟨u, hu⟩ := B.pend x y h
    refine ⟨u, ?_⟩
    simp only [setPc]
    rw [if_neg]
    · exact hu
    · rintro rfl
      rw [hu] at hw
      cases hw
      exact hnp _ h

theorem take_pc (st : State) (t : Nat) (s : Sess) (r : Req) :
    ∃ p c, take st t s r = { st with pc := setPc st.pc t p, flag := setFlag st.flag s none, cursor := c } ∧ p.holds = none := by
  unfold take
  cases r.kind with
  | plan =>
    cases st.cursor with
    | none => exact ⟨.crashed r, none, rfl, rfl⟩
    | some n => exact ⟨_, none, rfl, rfl⟩
  | size => exact ⟨_, st.cursor, rfl, rfl⟩
  | load => exact ⟨_, st.cursor, rfl, rfl⟩

theorem put_eq (st : State) (r : Req) : ∃ c z, put st r = { st with cursor := c, size := z } := by
  unfold put
  cases r.kind <;> exact ⟨_, _, rfl⟩

theorem mem_eraseIdx_of {l : List (Sess × Req)} (hn : (l.map Prod.fst).Nodup) {i : Nat} {s : Sess} {r : Req}
    (hi : l[i]? = some (s, r)) (s' : Sess) (r' : Req) : (s', r') ∈ l.eraseIdx i ↔ (s', r') ∈ l ∧ s' ≠ s := by
  induction l generalizing i with
  | nil => simp at hi
  | cons a l ih =>
    simp only [List.map_cons, List.nodup_cons] at hn
    cases i with
    | zero =>
      simp only [List.getElem?_cons_zero, Option.some.injEq] at hi
      subst hi
      simp only [List.eraseIdx_cons_zero, List.mem_cons, Prod.mk.injEq]
      constructor
      · intro h
        exact ⟨.inr h, fun e => hn.1 (List.mem_map.mpr ⟨_, h, e⟩)⟩
      · rintro ⟨h | h, hne⟩
        · exact absurd h.1 hne
        · exact h
    | succ i =>
      simp only [List.getElem?_cons_succ] at hi
      simp only [List.eraseIdx_cons_succ, List.mem_cons, ih hn.2 hi]
      constructor
      · rintro (h | h)
        · refine ⟨.inl h, ?_⟩
          subst h
          intro e
          exact hn.1 (List.mem_map.mpr ⟨(s, r), List.mem_of_getElem? hi, e.symm⟩)
        · exact ⟨.inr h.1, h.2⟩
      · rintro ⟨h | h, hne⟩
        · exact .inl h
        · exact .inr ⟨h, hne⟩

theorem base_step {st st' : State} {a : Act} (B : Base st) (hf : FreshSession st a) (h : Step st a st') : Base st' := by
  cases h with
  | call t s k h =>
    have hb := B.move t (.init s ⟨k, st.next⟩) (by rcases h with h | ⟨_, _, h⟩ <;> rw [h] <;> rfl)
      (by rcases h with h | ⟨_, _, h⟩ <;> rw [h] <;> rfl) (by simp)
    exact ⟨hb.wait, hb.send, hb.uniq, hb.pend, hb.nodup⟩
  | initNew t s' s r h hfl =>
    have hno : ∀ u, (st.pc u).holds ≠ some s := by
      intro u hu
      cases hp : st.pc u with
      | send x y =>
        rw [hp] at hu
        cases hu
        have := (B.send u s y hp).1
        rw [hfl] at this; cases this
      | enter x y => rw [hp] at hu; cases hu; have := B.wait u _ y (by rw [hp]; rfl); rw [hfl] at this; cases this
      | looked x y => rw [hp] at hu; cases hu; have := B.wait u _ y (by rw [hp]; rfl); rw [hfl] at this; cases this
      | asleep x y => rw [hp] at hu; cases hu; have := B.wait u _ y (by rw [hp]; rfl); rw [hfl] at this; cases this
      | idle => rw [hp] at hu; cases hu
      | init x y => rw [hp] at hu; cases hu
      | done x y => rw [hp] at hu; cases hu
      | crashed x => rw [hp] at hu; cases hu
      | threw x => rw [hp] at hu; cases hu
    have hnp : ∀ r', (s, r') ∉ st.pending := by
      intro r' hr'
      obtain ⟨u, hu⟩ := B.pend s r' hr'
      exact hno u (holds_of_waits hu)
    refine ⟨fun u x y hw => ?_, fun u x y hs => ?_, fun u u' x h1 h2 => ?_, fun x y hp => ?_, B.nodup⟩
    · simp only [setPc] at hw
      by_cases hu : u = t
      · rw [if_pos hu] at hw; cases hw
      · rw [if_neg hu] at hw
        have hx : x ≠ s := by rintro rfl; exact hno u (holds_of_waits hw)
        simp only [setFlag, if_neg hx]
        exact B.wait u x y hw
    · simp only [setPc] at hs
      by_cases hu : u = t
      · rw [if_pos hu] at hs
        cases hs
        exact ⟨by simp [setFlag], hnp⟩
      · rw [if_neg hu] at hs
        have hx : x ≠ s := by rintro rfl; exact hno u (by rw [hs]; rfl)
        simp only [setFlag, if_neg hx]
        exact B.send u x y hs
    · simp only [setPc] at h1 h2
      by_cases hu : u = t
      · rw [if_pos hu] at h1
        cases h1
        by_cases hu' : u' = t
        · rw [hu, hu']
        · rw [if_neg hu'] at h2
          exact absurd h2 (hno u')
      · rw [if_neg hu] at h1
        by_cases hu' : u' = t
        · rw [if_pos hu'] at h2
          cases h2
          exact absurd h1 (hno u)
        · rw [if_neg hu'] at h2
          exact B.uniq u u' x h1 h2
    · obtain ⟨u, hu⟩ := B.pend x y hp
      refine ⟨u, ?_⟩
      simp only [setPc]
      rw [if_neg]
      · exact hu
      · rintro rfl; rw [h] at hu; cases hu
  | initAgain t s' s r b h hfl =>
    have hb := B.move t (.init s' r) (by rw [h]; rfl) (by rw [h]; rfl) (by simp)
    have hsame : ∀ x, (∃ u, (st.pc u).holds = some x) → setFlag st.flag s (some false) x = st.flag x := by
      rintro x ⟨u, hu⟩
      by_cases hx : x = s
      · subst hx
        simp only [setFlag, if_pos]
        cases hp : st.pc u with
        | send a b => rw [hp] at hu; cases hu; exact ((B.send u x b hp).1).symm
        | enter a b =>
          rw [hp] at hu; cases hu
          have e := B.wait u _ b (by rw [hp]; rfl)
          have := hf _ r h u b (by rw [hp]; rfl)
          simp [this] at e
          exact e.symm
        | looked a b =>
          rw [hp] at hu; cases hu
          have e := B.wait u _ b (by rw [hp]; rfl)
          have := hf _ r h u b (by rw [hp]; rfl)
          simp [this] at e
          exact e.symm
        | asleep a b =>
          rw [hp] at hu; cases hu
          have e := B.wait u _ b (by rw [hp]; rfl)
          have := hf _ r h u b (by rw [hp]; rfl)
          simp [this] at e
          exact e.symm
        | idle => rw [hp] at hu; cases hu
        | init a b => rw [hp] at hu; cases hu
        | done a b => rw [hp] at hu; cases hu
        | crashed a => rw [hp] at hu; cases hu
        | threw a => rw [hp] at hu; cases hu
      · simp only [setFlag, if_neg hx]
    have hold : ∀ u x, (setPc st.pc t (.init s' r) u).holds = some x → (st.pc u).holds = some x := by
      intro u x hu
      simp only [setPc] at hu
      by_cases e : u = t
      · rw [if_pos e] at hu; cases hu
      · rw [if_neg e] at hu; exact hu
    refine ⟨fun u x y hw => ?_, fun u x y hs => ?_, hb.uniq, hb.pend, hb.nodup⟩
    · show setFlag st.flag s (some false) x = _
      rw [hsame x ⟨u, hold u x (holds_of_waits hw)⟩]
      exact hb.wait u x y hw
    · show setFlag st.flag s (some false) x = _ ∧ _
      rw [hsame x ⟨u, hold u x (by rw [show setPc st.pc t (.init s' r) u = .send x y from hs]; rfl)⟩]
      exact hb.send u x y hs
  | send t s r h =>
    obtain ⟨hfl, hnp⟩ := B.send t s r h
    have hother : ∀ u, u ≠ t → (st.pc u).holds ≠ some s := fun u hu e => hu (B.uniq u t s e (by rw [h]; rfl))
    refine ⟨fun u x y hw => ?_, fun u x y hs => ?_, fun u u' x h1 h2 => ?_, fun x y hp => ?_, ?_⟩
    · simp only [setPc] at hw
      by_cases hu : u = t
      · rw [if_pos hu] at hw
        cases hw
        simp [hfl]
      · rw [if_neg hu] at hw
        have hx : x ≠ s := by rintro rfl; exact hother u hu (holds_of_waits hw)
        rw [B.wait u x y hw]
        simp [hx]
    · simp only [setPc] at hs
      by_cases hu : u = t
      · rw [if_pos hu] at hs; cases hs
      · rw [if_neg hu] at hs
        have hx : x ≠ s := by rintro rfl; exact hother u hu (by rw [hs]; rfl)
        refine ⟨(B.send u x y hs).1, fun r' hr' => ?_⟩
        simp only [List.mem_append, List.mem_cons, Prod.mk.injEq, List.not_mem_nil, or_false] at hr'
        rcases hr' with hr' | hr'
        · exact (B.send u x y hs).2 r' hr'
        · exact hx hr'.1
    · have hh : ∀ v, (setPc st.pc t (.enter s r) v).holds = (st.pc v).holds := by
        intro v
        simp only [setPc]
        by_cases e : v = t
        · rw [if_pos e, e, h]; rfl
        · rw [if_neg e]
      simp only [hh] at h1 h2
      exact B.uniq u u' x h1 h2
    · simp only [List.mem_append, List.mem_cons, Prod.mk.injEq, List.not_mem_nil, or_false] at hp
      rcases hp with hp | ⟨rfl, rfl⟩
      · obtain ⟨u, hu⟩ := B.pend x y hp
        refine ⟨u, ?_⟩
        simp only [setPc]
        rw [if_neg]
        · exact hu
        · rintro rfl; rw [h] at hu; cases hu
      · exact ⟨t, by simp [setPc, Pc.waits]⟩
    · simp only [List.map_append, List.map_cons, List.map_nil]
      refine List.nodup_append.mpr ⟨B.nodup, by simp, ?_⟩
      rintro x hx y hy rfl
      simp only [List.mem_cons, List.not_mem_nil, or_false] at hy
      subst hy
      obtain ⟨⟨a, b⟩, h1, h2⟩ := List.mem_map.mp hx
      simp only at h2
      subst h2
      exact hnp b h1
  | lookTrue t s r h hm hfl =>
    obtain ⟨p, c, e, hp⟩ := take_pc st t s r
    rw [e]
    exact B.give t s r p (by rw [h]; rfl) hp hfl c st.size
  | lookFalse t s r h hm hfl => exact B.move t _ (by rw [h]; rfl) (by rw [h]; rfl) (by simp)
  | lookThrow t s r h hm hfl =>
    have := B.wait t s r (by rw [h]; rfl)
    rw [hfl] at this; cases this
  | sleep t s r h => exact B.move t _ (by rw [h]; rfl) (by rw [h]; rfl) (by simp)
  | spurious t s r h => exact B.move t _ (by rw [h]; rfl) (by rw [h]; rfl) (by simp)
  | answer i s r h hm =>
    obtain ⟨c, z, e⟩ := put_eq { st with pending := st.pending.eraseIdx i } r
    rw [e]
    have hmem := fun x y => mem_eraseIdx_of B.nodup h x y
    obtain ⟨t, ht⟩ := B.pend s r (List.mem_of_getElem? h)
    refine ⟨fun u x y hw => ?_, fun u x y hs => ?_, fun u u' x h1 h2 => ?_, fun x y hp => ?_, ?_⟩
    · simp only [notify, waits_wake] at hw
      simp only [notify, hmem]
      by_cases hx : x = s
      · subst hx
        simp [setFlag]
      · simp only [setFlag, if_neg hx]
        rw [B.wait u x y hw]
        simp [hx]
    · have hs' := wake_send (show wake (st.pc u) = .send x y from hs)
      have hx : x ≠ s := by
        rintro rfl
        exact (B.send u x y hs').2 r (List.mem_of_getElem? h)
      refine ⟨?_, fun r' hr' => ?_⟩
      · simp only [notify, setFlag, if_neg hx]
        exact (B.send u x y hs').1
      · simp only [notify, hmem] at hr'
        exact (B.send u x y hs').2 r' hr'.1
    · simp only [notify, holds_wake] at h1 h2
      exact B.uniq u u' x h1 h2
    · simp only [notify, hmem] at hp
      obtain ⟨u, hu⟩ := B.pend x y hp.1
      exact ⟨u, by simp only [notify, waits_wake]; exact hu⟩
    · simp only [notify]
      exact B.nodup.sublist ((List.eraseIdx_sublist _ _).map _)

/-! ### the slots -/

/-- The answers that arrived are in their slots, and what was returned is right. -/
structure Slots (st : State) : Prop where
  plan : ∀ t s r, (st.pc t).waits = some (s, r) → (s, r) ∉ st.pending → r.kind = .plan → st.cursor = some r.no
  size : ∀ t s r, (st.pc t).waits = some (s, r) → (s, r) ∉ st.pending → r.kind = .size → st.size = some r.no
  one : ∀ t t' s s' r r', (st.pc t).waits = some (s, r) → (st.pc t').waits = some (s', r') → (s, r) ∉ st.pending →
    (s', r') ∉ st.pending → r.kind = r'.kind → t = t'
  right : Right st

theorem slots_start : Slots State.start :=
  ⟨by simp [State.start, Pc.waits], by simp [State.start, Pc.waits], by simp [State.start, Pc.waits], by simp [Right, State.start]⟩

/-- A step of one thread that keeps what it waits for. -/
theorem Slots.move {st : State} (S : Slots st) (t : Nat) (p : Pc) (hw : p.waits = (st.pc t).waits ∨ p.waits = none)
    (hd : ∀ r a, p ≠ .done r a) (hc : ∀ r, p ≠ .crashed r) (ht : ∀ r, p ≠ .threw r) (f : Sess → Option Bool) (n : Nat) :
    Slots { st with pc := setPc st.pc t p, flag := f, next := n } := by
  have W : ∀ u s r, (setPc st.pc t p u).waits = some (s, r) → (st.pc u).waits = some (s, r) := by
    intro u s r h
    simp only [setPc] at h
    by_cases e : u = t
    · rw [if_pos e] at h
      rcases hw with hw | hw
      · rw [e, ← hw]; exact h
      · rw [hw] at h; cases h
    · rw [if_neg e] at h; exact h
  refine ⟨fun u s r h => S.plan u s r (W u s r h), fun u s r h => S.size u s r (W u s r h),
    fun u u' s s' r r' h h' => S.one u u' s s' r r' (W u s r h) (W u' s' r' h'), fun u => ?_⟩
  obtain ⟨h1, h2, h3⟩ := S.right u
  refine ⟨fun r a h => ?_, fun r h => ?_, fun r h => ?_⟩
  all_goals
    simp only [setPc] at h
    by_cases e : u = t
    · rw [if_pos e] at h
      first | exact absurd h (hd r a) | exact absurd h (hc r) | exact absurd h (ht r)
    · rw [if_neg e] at h
      first | exact h1 r a h | exact absurd h (h2 r) | exact absurd h (h3 r)

theorem slots_step {st st' : State} {a : Act} (B : Base st) (S : Slots st) (ho : OneAnswer st a) (h : Step st a st') : Slots st' := by
  cases h with
  | call t s k h => exact S.move t _ (.inr rfl) (by simp) (by simp) (by simp) st.flag (st.next + 1)
  | initNew t s' s r h hfl => exact S.move t _ (.inr rfl) (by simp) (by simp) (by simp) _ st.next
  | initAgain t s' s r b h hfl => exact S.move t _ (.inr rfl) (by simp) (by simp) (by simp) _ st.next
  | lookFalse t s r h hm hfl => exact S.move t _ (.inl (by rw [h]; rfl)) (by simp) (by simp) (by simp) st.flag st.next
  | sleep t s r h => exact S.move t _ (.inl (by rw [h]; rfl)) (by simp) (by simp) (by simp) st.flag st.next
  | spurious t s r h => exact S.move t _ (.inl (by rw [h]; rfl)) (by simp) (by simp) (by simp) st.flag st.next
  | lookThrow t s r h hm hfl =>
    have := B.wait t s r (by rw [h]; rfl)
    rw [hfl] at this; cases this
  | send t s r h =>
    have W : ∀ u x y, (setPc st.pc t (.enter s r) u).waits = some (x, y) → (x, y) ∉ st.pending ++ [(s, r)] →
        (st.pc u).waits = some (x, y) ∧ (x, y) ∉ st.pending := by
      intro u x y hw hn
      simp only [List.mem_append, List.mem_cons, List.not_mem_nil, or_false, not_or] at hn
      simp only [setPc] at hw
      by_cases e : u = t
      · rw [if_pos e] at hw
        cases hw
        exact absurd rfl hn.2
      · rw [if_neg e] at hw; exact ⟨hw, hn.1⟩
    refine ⟨fun u x y hw hn => ?_, fun u x y hw hn => ?_, fun u u' x x' y y' hw hw' hn hn' => ?_, fun u => ?_⟩
    · obtain ⟨h1, h2⟩ := W u x y hw hn
      exact S.plan u x y h1 h2
    · obtain ⟨h1, h2⟩ := W u x y hw hn
      exact S.size u x y h1 h2
    · obtain ⟨h1, h2⟩ := W u x y hw hn
      obtain ⟨h3, h4⟩ := W u' x' y' hw' hn'
      exact S.one u u' x x' y y' h1 h3 h2 h4
    · obtain ⟨h1, h2, h3⟩ := S.right u
      simp only [setPc]
      by_cases e : u = t
      · rw [if_pos e]; simp
      · rw [if_neg e]; exact ⟨h1, h2, h3⟩
  | lookTrue t s r h hm hfl =>
    have hw : (st.pc t).waits = some (s, r) := by rw [h]; rfl
    have hn : (s, r) ∉ st.pending := by
      have := B.wait t s r hw
      rw [hfl] at this
      simpa using this
    have key : ∀ (a : Ret) (c : Option Nat), a = r.own → (r.kind ≠ .plan → c = st.cursor) →
        Slots { st with pc := setPc st.pc t (.done r a), flag := setFlag st.flag s none, cursor := c } := by
      intro a c ha hc
      have W : ∀ u x y, (setPc st.pc t (.done r a) u).waits = some (x, y) → u ≠ t ∧ (st.pc u).waits = some (x, y) := by
        intro u x y hx
        simp only [setPc] at hx
        by_cases e : u = t
        · rw [if_pos e] at hx; cases hx
        · rw [if_neg e] at hx; exact ⟨e, hx⟩
      refine ⟨fun u x y hx hp hk => ?_, fun u x y hx hp hk => ?_, fun u u' x x' y y' hx hx' hp hp' hk => ?_, fun u => ?_⟩
      · obtain ⟨h1, h2⟩ := W u x y hx
        by_cases hr : r.kind = .plan
        · exact absurd (S.one u t x s y r h2 hw hp hn (hk.trans hr.symm)) h1
        · show c = _
          rw [hc hr]
          exact S.plan u x y h2 hp hk
      · exact S.size u x y (W u x y hx).2 hp hk
      · exact S.one u u' x x' y y' (W u x y hx).2 (W u' x' y' hx').2 hp hp' hk
      · obtain ⟨h1, h2, h3⟩ := S.right u
        simp only [setPc]
        by_cases e : u = t
        · rw [if_pos e]
          refine ⟨fun r' a' e' => ?_, by simp, by simp⟩
          cases e'
          exact ha
        · rw [if_neg e]; exact ⟨h1, h2, h3⟩
    unfold take
    cases hk : r.kind with
    | plan =>
      have hc := S.plan t s r hw hn hk
      simp only [hc]
      exact key _ none (by simp [Req.own, hk]) (fun h => absurd hk h)
    | size =>
      have hz := S.size t s r hw hn hk
      simp only [hz]
      have := key (.size (some r.no)) st.cursor (by simp [Req.own, hk]) (fun _ => rfl)
      rw [← hz] at this ⊢
      exact this
    | load => exact key _ st.cursor (by simp [Req.own, hk]) (fun _ => rfl)
  | answer i s r h hm =>
    have hmem := fun x y => mem_eraseIdx_of B.nodup h x y
    obtain ⟨t, ht⟩ := B.pend s r (List.mem_of_getElem? h)
    have ho' : ∀ u x y, (st.pc u).waits = some (x, y) → y.kind = r.kind → (x, y) ∈ st.pending := fun u x y hx hk =>
      ho s r h u x y hx hk
    have pw : ∀ u, ((notify (put { st with pending := st.pending.eraseIdx i } r) s).pc u).waits = (st.pc u).waits := by
      intro u
      have : (notify (put { st with pending := st.pending.eraseIdx i } r) s).pc u = wake (st.pc u) := by
        unfold notify put
        cases r.kind <;> rfl
      rw [this, waits_wake]
    have pp : (notify (put { st with pending := st.pending.eraseIdx i } r) s).pending = st.pending.eraseIdx i := by
      unfold notify put
      cases r.kind <;> rfl
    have npend : ∀ u x y, (st.pc u).waits = some (x, y) → (x, y) ∉ st.pending.eraseIdx i → (x, y) ∉ st.pending ∨ (x = s ∧ y = r ∧ u = t) := by
      intro u x y hx hn
      rw [hmem] at hn
      by_cases hp : (x, y) ∈ st.pending
      · refine .inr ?_
        have hxs : x = s := by
          by_contra hne
          exact hn ⟨hp, hne⟩
        subst hxs
        have hut := B.uniq u t x (holds_of_waits hx) (holds_of_waits ht)
        subst hut
        rw [ht] at hx
        cases hx
        exact ⟨rfl, rfl, rfl⟩
      · exact .inl hp
    refine ⟨fun u x y hx hn hk => ?_, fun u x y hx hn hk => ?_, fun u u' x x' y y' hx hx' hn hn' hk => ?_, fun u => ?_⟩
    · rw [pw] at hx
      rw [pp] at hn
      rcases npend u x y hx hn with hp | ⟨rfl, rfl, rfl⟩
      · have hrk : r.kind ≠ .plan := fun e => hp (ho' u x y hx (hk.trans e.symm))
        have : (notify (put { st with pending := st.pending.eraseIdx i } r) s).cursor = st.cursor := by
          unfold notify put
          cases hr : r.kind
          · exact absurd hr hrk
          · rfl
          · rfl
        rw [this]
        exact S.plan u x y hx hp hk
      · unfold notify put
        rw [hk]
    · rw [pw] at hx
      rw [pp] at hn
      rcases npend u x y hx hn with hp | ⟨rfl, rfl, rfl⟩
      · have hrk : r.kind ≠ .size := fun e => hp (ho' u x y hx (hk.trans e.symm))
        have : (notify (put { st with pending := st.pending.eraseIdx i } r) s).size = st.size := by
          unfold notify put
          cases hr : r.kind
          · rfl
          · exact absurd hr hrk
          · rfl
        rw [this]
        exact S.size u x y hx hp hk
      · unfold notify put
        rw [hk]
    · rw [pw] at hx hx'
      rw [pp] at hn hn'
      rcases npend u x y hx hn with hp | ⟨rfl, rfl, rfl⟩
      · rcases npend u' x' y' hx' hn' with hp' | ⟨rfl, rfl, rfl⟩
        · exact S.one u u' x x' y y' hx hx' hp hp' hk
        · exact absurd (ho' u x y hx hk) hp
      · rcases npend u' x' y' hx' hn' with hp' | ⟨rfl, rfl, rfl⟩
        · exact absurd (ho' u' x' y' hx' hk.symm) hp'
        · rfl
    · have hpc : (notify (put { st with pending := st.pending.eraseIdx i } r) s).pc u = wake (st.pc u) := by
        unfold notify put
        cases r.kind <;> rfl
      rw [hpc]
      obtain ⟨h1, h2, h3⟩ := S.right u
      exact ⟨fun r a e => h1 r a (wake_done e), fun r e => h2 r (wake_crashed e), fun r e => h3 r (wake_threw e)⟩

theorem run_right {st st' : State} {as : List Act} (B : Base st) (S : Slots st)
    (h : RunIf (fun st a => FreshSession st a ∧ OneAnswer st a) st as st') : Base st' ∧ Slots st' := by
  induction h with
  | nil => exact ⟨B, S⟩
  | cons hok h _ ih => exact ih (base_step B hok.1 h) (slots_step B S hok.2 h)

/-! ### waking up -/

/-- No thread that sleeps or is about to sleep has been answered, and nobody loads. -/
structure Awake (st : State) : Prop where
  looked : ∀ t s r, st.pc t = .looked s r → (s, r) ∈ st.pending
  asleep : ∀ t s r, st.pc t = .asleep s r → (s, r) ∈ st.pending
  kind : ∀ t s r, st.pc t = .init s r ∨ st.pc t = .send s r ∨ (st.pc t).waits = some (s, r) → r.kind ≠ .load
  one : ∀ t t' s s' r r', st.pc t = .looked s r → st.pc t' = .looked s' r' → t = t'

theorem awake_start : Awake State.start :=
  ⟨by simp [State.start], by simp [State.start], by simp [State.start, Pc.waits], by simp [State.start]⟩

/-- A step of one thread that neither looks nor sleeps. -/
theorem Awake.move {st : State} (A : Awake st) (t : Nat) (p : Pc) (hl : ∀ s r, p ≠ .looked s r) (hs : ∀ s r, p ≠ .asleep s r)
    (hk : ∀ s r, p = .init s r ∨ p = .send s r ∨ p.waits = some (s, r) → r.kind ≠ .load) (f : Sess → Option Bool) (n : Nat)
    (c : Option Nat) (extra : List (Sess × Req)) :
    Awake { st with pc := setPc st.pc t p, flag := f, next := n, cursor := c, pending := st.pending ++ extra } := by
  refine ⟨fun u s r h => ?_, fun u s r h => ?_, fun u s r h => ?_, fun u u' s s' r r' h h' => ?_⟩
  · simp only [setPc] at h
    by_cases e : u = t
    · rw [if_pos e] at h; exact absurd h (hl s r)
    · rw [if_neg e] at h; exact List.mem_append_left _ (A.looked u s r h)
  · simp only [setPc] at h
    by_cases e : u = t
    · rw [if_pos e] at h; exact absurd h (hs s r)
    · rw [if_neg e] at h; exact List.mem_append_left _ (A.asleep u s r h)
  · simp only [setPc] at h
    by_cases e : u = t
    · rw [if_pos e] at h; exact hk s r h
    · rw [if_neg e] at h; exact A.kind u s r h
  · simp only [setPc] at h h'
    by_cases e : u = t
    · rw [if_pos e] at h; exact absurd h (hl s r)
    · by_cases e' : u' = t
      · rw [if_pos e'] at h'; exact absurd h' (hl s' r')
      · rw [if_neg e] at h
        rw [if_neg e'] at h'
        exact A.one u u' s s' r r' h h'

theorem awake_step {st st' : State} {a : Act} (B : Base st) (A : Awake st) (hl : NoLoad a) (h : Step st a st') : Awake st' := by
  cases h with
  | call t s k h =>
    have := A.move t (.init s ⟨k, st.next⟩) (by simp) (by simp) (by
      intro s' r' h'
      simp only [Pc.init.injEq, reduceCtorEq, Pc.waits, or_self, or_false] at h'
      rw [← h'.2]
      exact hl) st.flag (st.next + 1) st.cursor []
    simpa using this
  | initNew t s' s r h hfl =>
    have := A.move t (.send s r) (by simp) (by simp) (by
      intro s' r' h'
      simp only [Pc.send.injEq, reduceCtorEq, Pc.waits, false_or, or_false] at h'
      rw [← h'.2]
      exact A.kind t s r (.inl h)) (setFlag st.flag s (some false)) st.next st.cursor []
    simpa using this
  | initAgain t s' s r b h hfl =>
    have := A.move t (.init s' r) (by simp) (by simp) (by
      intro x r' h'
      simp only [Pc.init.injEq, reduceCtorEq, Pc.waits, or_self, or_false] at h'
      rw [← h'.2]
      exact A.kind t s r (.inl h)) (setFlag st.flag s (some false)) st.next st.cursor []
    simpa using this
  | send t s r h =>
    refine A.move t (.enter s r) (by simp) (by simp) (by
      intro x r' h'
      simp only [reduceCtorEq, Pc.waits, Option.some.injEq, Prod.mk.injEq, false_or] at h'
      rw [← h'.2]
      exact A.kind t s r (.inr (.inl h))) st.flag st.next st.cursor [(s, r)]
  | lookTrue t s r h hm hfl =>
    obtain ⟨p, c, e, hp⟩ := take_pc st t s r
    rw [e]
    have hpw : p.waits = none := by
      cases h : p.waits with
      | none => rfl
      | some x => obtain ⟨a, b⟩ := x; rw [holds_of_waits h] at hp; cases hp
    have hnd : ∀ s r, p ≠ .init s r := by
      rintro x y rfl
      unfold take at e
      have := congrArg (fun q => q.pc t) e
      cases hk : r.kind <;> simp only [hk] at this
      · cases hc : st.cursor <;> simp [hc, setPc] at this
      · simp [setPc] at this
      · simp [setPc] at this
    have := A.move t p (by rintro x y rfl; simp [Pc.waits] at hpw) (by rintro x y rfl; simp [Pc.waits] at hpw) (by
      intro x y hxy
      rcases hxy with h1 | h1 | h1
      · exact absurd h1 (hnd x y)
      · subst h1; simp [Pc.holds] at hp
      · rw [hpw] at h1; cases h1) (setFlag st.flag s none) st.next c []
    simpa using this
  | lookFalse t s r h hm hfl =>
    have hmem : (s, r) ∈ st.pending := by
      have := B.wait t s r (by rw [h]; rfl)
      rw [hfl] at this
      simpa using this
    refine ⟨fun u x y hu => ?_, fun u x y hu => ?_, fun u x y hu => ?_, fun u u' x x' y y' hu hu' => ?_⟩
    · simp only [setPc] at hu
      by_cases e : u = t
      · rw [if_pos e] at hu; cases hu; exact hmem
      · rw [if_neg e] at hu; exact A.looked u x y hu
    · simp only [setPc] at hu
      by_cases e : u = t
      · rw [if_pos e] at hu; cases hu
      · rw [if_neg e] at hu; exact A.asleep u x y hu
    · simp only [setPc] at hu
      by_cases e : u = t
      · rw [if_pos e] at hu
        simp only [reduceCtorEq, Pc.waits, Option.some.injEq, Prod.mk.injEq, false_or] at hu
        rw [← hu.2]
        exact A.kind t s r (.inr (.inr (by rw [h]; rfl)))
      · rw [if_neg e] at hu; exact A.kind u x y hu
    · simp only [setPc] at hu hu'
      by_cases e : u = t
      · by_cases e' : u' = t
        · rw [e, e']
        · rw [if_neg e'] at hu'; exact absurd hu' (hm u' x' y')
      · rw [if_neg e] at hu; exact absurd hu (hm u x y)
  | lookThrow t s r h hm hfl =>
    have := B.wait t s r (by rw [h]; rfl)
    rw [hfl] at this; cases this
  | sleep t s r h =>
    have hmem := A.looked t s r h
    refine ⟨fun u x y hu => ?_, fun u x y hu => ?_, fun u x y hu => ?_, fun u u' x x' y y' hu hu' => ?_⟩
    · simp only [setPc] at hu
      by_cases e : u = t
      · rw [if_pos e] at hu; cases hu
      · rw [if_neg e] at hu; exact A.looked u x y hu
    · simp only [setPc] at hu
      by_cases e : u = t
      · rw [if_pos e] at hu; cases hu; exact hmem
      · rw [if_neg e] at hu; exact A.asleep u x y hu
    · simp only [setPc] at hu
      by_cases e : u = t
      · rw [if_pos e] at hu
        simp only [reduceCtorEq, Pc.waits, Option.some.injEq, Prod.mk.injEq, false_or] at hu
        rw [← hu.2]
        exact A.kind t s r (.inr (.inr (by rw [h]; rfl)))
      · rw [if_neg e] at hu; exact A.kind u x y hu
    · simp only [setPc] at hu hu'
      by_cases e : u = t
      · rw [if_pos e] at hu; cases hu
      · by_cases e' : u' = t
        · rw [if_pos e'] at hu'; cases hu'
        · rw [if_neg e] at hu
          rw [if_neg e'] at hu'
          exact A.one u u' x x' y y' hu hu'
  | spurious t s r h =>
    have := A.move t (.enter s r) (by simp) (by simp) (by
      intro x r' h'
      simp only [reduceCtorEq, Pc.waits, Option.some.injEq, Prod.mk.injEq, false_or] at h'
      rw [← h'.2]
      exact A.kind t s r (.inr (.inr (by rw [h]; rfl)))) st.flag st.next st.cursor []
    simpa using this
  | answer i s r h hm =>
    obtain ⟨t, ht⟩ := B.pend s r (List.mem_of_getElem? h)
    have hfree := hm (A.kind t s r (.inr (.inr ht)))
    have hpc : ∀ u, (notify (put { st with pending := st.pending.eraseIdx i } r) s).pc u = wake (st.pc u) := by
      intro u
      unfold notify put
      cases r.kind <;> rfl
    have hnl : ∀ u x y, wake (st.pc u) ≠ .looked x y := by
      intro u x y e
      have : st.pc u = .looked x y := by cases hp : st.pc u <;> simp_all [wake]
      exact hfree u x y this
    refine ⟨fun u x y hu => ?_, fun u x y hu => ?_, fun u x y hu => ?_, fun u u' x x' y y' hu hu' => ?_⟩
    · rw [hpc] at hu; exact absurd hu (hnl u x y)
    · rw [hpc] at hu
      cases hp : st.pc u <;> simp_all [wake]
    · rw [hpc, waits_wake] at hu
      refine A.kind u x y ?_
      rcases hu with hu | hu | hu
      · refine .inl ?_
        cases hp : st.pc u <;> simp_all [wake]
      · exact .inr (.inl (wake_send hu))
      · exact .inr (.inr hu)
    · rw [hpc] at hu; exact absurd hu (hnl u x y)

theorem run_awake {st st' : State} {as : List Act} (B : Base st) (A : Awake st)
    (h : RunIf (fun st a => FreshSession st a ∧ NoLoad a) st as st') : Base st' ∧ Awake st' := by
  induction h with
  | nil => exact ⟨B, A⟩
  | cons hok h _ ih => exact ih (base_step B hok.1 h) (awake_step B A hok.2 h)

theorem take_back (st : State) (t : Nat) (s : Sess) (r : Req) : Back (take st t s r) t := by
  obtain ⟨p, c, e, hp⟩ := take_pc st t s r
  rw [e]
  unfold Back
  simp only [setPc, if_pos]
  cases h : p.waits with
  | none => rfl
  | some x => obtain ⟨a, b⟩ := x; rw [holds_of_waits h] at hp; cases hp

theorem can_return {st : State} (B : Base st) (A : Awake st) (t : Nat) (h : Answered st t) :
    ∃ as st', (∀ a ∈ as, a = .look t ∨ ∃ u, a = .sleep u) ∧ Run st as st' ∧ Back st' t := by
  obtain ⟨s, r, hw, hn⟩ := h
  have hf : st.flag s = some true := by rw [B.wait t s r hw]; simp [hn]
  have he : st.pc t = .enter s r := by
    cases hp : st.pc t with
    | enter x y => rw [hp] at hw; cases hw; rfl
    | looked x y => rw [hp] at hw; cases hw; exact absurd (A.looked t s r hp) hn
    | asleep x y => rw [hp] at hw; cases hw; exact absurd (A.asleep t s r hp) hn
    | idle => rw [hp] at hw; cases hw
    | init x y => rw [hp] at hw; cases hw
    | send x y => rw [hp] at hw; cases hw
    | done x y => rw [hp] at hw; cases hw
    | crashed x => rw [hp] at hw; cases hw
    | threw x => rw [hp] at hw; cases hw
  by_cases hm : Free st
  · exact ⟨[.look t], _, by simp, .cons (.lookTrue st t s r he hm hf) (.nil _), take_back st t s r⟩
  · unfold Free at hm
    simp only [ne_eq, not_forall, Decidable.not_not] at hm
    obtain ⟨u, x, y, hu⟩ := hm
    have hut : t ≠ u := by rintro rfl; rw [he] at hu; cases hu
    have hm' : Free { st with pc := setPc st.pc u (.asleep x y) } := by
      intro v a b hv
      simp only [setPc] at hv
      by_cases e : v = u
      · rw [if_pos e] at hv; cases hv
      · rw [if_neg e] at hv
        exact e (A.one v u a x b y hv hu)
    refine ⟨[.sleep u, .look t], _, by simp, .cons (.sleep st u x y hu) (.cons (.lookTrue _ t s r ?_ hm' hf) (.nil _)), take_back _ t s r⟩
    simp only [setPc, if_neg hut]
    exact he

end Verif.Wrapper
