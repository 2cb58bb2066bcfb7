import Verif.Buf.Steps
/-!
C94: what clients of the buffer manager get from it.
-/
namespace Verif.Buf

open Function

theorem run_length : ∀ (calls : List (Env × Op)) (s : Pool), (run calls s).2.length = calls.length
  | [], _ => rfl
  | (e, op) :: calls, s => by simp only [run, List.length_cons, run_length calls]

/-- C94, in full: whatever clients call in whatever order from whatever threads, each answer is one an ideal memory could give,
and a block is never lost unless its client allowed it to be thrown away. -/
def C94_claim : Prop :=
  ∀ (limit : Nat) (calls : List (Env × Op)), Allowed true limit calls (run calls (Pool.start limit)).2

/-- C94, except that a block no buffer handle holds may be lost if memory was short since: every history of calls is answered
as by the ideal memory. -/
theorem C94_buffers_partial (limit : Nat) (calls : List (Env × Op)) :
    Allowed false limit calls (run calls (Pool.start limit)).2 := by
  obtain ⟨st, h, _⟩ := run_follows calls (start_rel limit)
  exact ⟨run_length _ _, by rw [h]; rfl⟩

/-- Buffers come with zeros here. -/
def here (t : Nat) : Env := ⟨t, fun _ => 0⟩

/-- A history: two blocks of 3 MiB under a limit of 4 MiB, the first one is written and let go before the second is made. -/
def crowded : List (Env × Op) :=
  [(here 1, .transient 3145720 3145720), (here 1, .pin 0), (here 1, .write 1 7 42), (here 1, .read 1 7), (here 2, .unpin 1),
   (here 2, .usage 9), (here 2, .transient 3145720 3145720), (here 1, .pin 0), (here 1, .pin 1), (here 3, .usage 13)]


/-- The first block is not to be destroyed, but is thrown away for the second, and the second in the attempt to get the first
back. -/
theorem C94_thrown_away_fails : ¬ C94_claim := by
  intro h
  have := (h 4194304 crowded).2
  revert this
  decide +kernel

example : (run crowded (Pool.start 4194304)).2 =
    [.block 0, .handle 1 0, .done, .byte 42, .done, .bytes 3145728, .block 1, .lost, .lost, .bytes 0] := by
  decide +kernel

/-! ### When memory is not short -/

def NoDoubt (st : Ideal) : Prop := ∀ i o, st.obj i = some o → o.doubt = false

theorem total_le (st : Ideal) : st.total (fun o => if o.stays then o.cost else 0) ≤ st.total Obj.cost := by
  unfold Ideal.total
  refine sumN_le fun i _ => ?_
  cases st.obj i with
  | none => simp
  | some o => simp only [Option.elim]; split <;> simp

theorem not_exhausted {st : Ideal} {n l : Nat} (h : ¬ st.short n l) : ¬ st.exhausted n l := by
  intro g
  refine h ?_
  unfold Ideal.exhausted at g
  unfold Ideal.short
  have := total_le st
  omega

theorem request_roomy {st : Ideal} {n l : Nat} (h : ¬ st.short n l) : st.request n l = st := if_neg h

theorem guard_some {p : Prop} [Decidable p] {st st' : Ideal} (h : guard' p st = some st') : p ∧ st' = st := by
  unfold guard' at h
  split at h
  · rename_i hp; exact ⟨hp, by simpa using h.symm⟩
  · cases h

theorem NoDoubt.set {st : Ideal} (h : NoDoubt st) (i : Nat) {o : Option Obj} (ho : ∀ x, o = some x → x.doubt = false) :
    NoDoubt (st.set i o) := by
  intro j x hx
  simp only [Ideal.set, update_apply] at hx
  split at hx
  · exact ho x hx
  · exact h j x hx

theorem NoDoubt.add {st : Ideal} (h : NoDoubt st) {o : Obj} (ho : o.doubt = false) : NoDoubt (st.add o) := by
  have := h.set st.next (o := some o) (fun x e => by cases e; exact ho)
  exact this

theorem NoDoubt.addHandle {st : Ideal} (h : NoDoubt st) (i : Nat) : NoDoubt (st.addHandle i) := h

theorem alive_doubt {o : Obj} (h : o.doubt = false) : ∀ x, o.alive = some x → x.doubt = false := by
  intro x e
  unfold Obj.alive at e
  split at e
  · cases e
  · cases e; exact h

theorem held_obj {st : Ideal} {h i : Nat} {o : Obj} (e : st.held h = some (i, o)) : st.obj i = some o := by
  unfold Ideal.held at e
  split at e
  · cases e
  · rename_i j _
    cases ho : st.obj j with
    | none => simp [ho] at e
    | some x =>
      simp only [ho, Option.map, Option.some.injEq, Prod.mk.injEq] at e
      obtain ⟨rfl, rfl⟩ := e
      exact ho

theorem pointed_obj {st : Ideal} {i : Nat} {o : Obj} (e : st.pointed i = some o) : st.obj i = some o := by
  unfold Ideal.pointed at e
  split at e
  · rename_i x hx
    split at e
    · cases e
    · rw [hx, e]
  · cases e

/-- What a request for memory may answer when memory is not short. -/
theorem memory_roomy {st st' : Ideal} {n : Nat} {a : Ans} {ok : Ideal → Option Ideal} (h : ¬ st.short n st.limit)
    (e : st.memory n a ok = some st') : a ≠ .oom ∧ ok st = some st' := by
  unfold Ideal.memory at e
  split at e
  · exact absurd (guard_some e).1 (not_exhausted h)
  · rename_i hne
    rw [request_roomy h] at e
    exact ⟨hne, e⟩

def Good (a : Ans) (st' : Ideal) : Prop := a ≠ .oom ∧ a ≠ .lost ∧ NoDoubt st'

theorem after_roomy {st st' : Ideal} {op : Op} {a : Ans} (nd : NoDoubt st) (hr : ¬ st.short (needs st op).1 (needs st op).2)
    (e : st.after false op a = some st') : Good a st' ∧ st.after true op a = some st' := by
  cases op with
  | pin i =>
    simp only [Ideal.after] at e ⊢
    cases hp : st.pointed i with
    | none =>
      simp only [hp] at e ⊢
      obtain ⟨rfl, rfl⟩ := guard_some e
      exact ⟨⟨by simp, by simp, nd⟩, e⟩
    | some o =>
      have hd := nd i o (pointed_obj hp)
      simp only [hp] at e ⊢
      cases a with
      | handle h j =>
        simp only at e ⊢
        obtain ⟨_, rfl⟩ := guard_some e
        exact ⟨⟨by simp, by simp, (nd.set i (fun x hx => by cases hx; rfl)).addHandle i⟩, e⟩
      | oom => simp only at e; have := (guard_some e).1; simp [hd] at this
      | lost => simp only at e; have := (guard_some e).1; simp [hd] at this
      | _ => cases e
  | small tag size =>
    refine ⟨?_, e⟩
    simp only [Ideal.after] at e
    split at e
    · obtain ⟨h1, h2⟩ := memory_roomy hr e
      cases a <;> first | cases h2 | skip
      obtain ⟨_, rfl⟩ := guard_some h2
      exact ⟨by simp, by simp, nd.add rfl⟩
    · obtain ⟨rfl, rfl⟩ := guard_some e
      exact ⟨by simp, by simp, nd⟩
  | allocate tag size sp =>
    refine ⟨?_, e⟩
    simp only [Ideal.after] at e
    split at e
    · obtain ⟨h1, h2⟩ := memory_roomy hr e
      cases a <;> first | cases h2 | skip
      obtain ⟨_, rfl⟩ := guard_some h2
      exact ⟨by simp, by simp, (nd.add rfl).addHandle _⟩
    · obtain ⟨rfl, rfl⟩ := guard_some e
      exact ⟨by simp, by simp, nd⟩
  | transient size bs =>
    refine ⟨?_, e⟩
    simp only [Ideal.after] at e
    split at e
    · by_cases hlt : size < bs
      · simp only [needs, hlt, if_true] at hr e
        obtain ⟨h1, h2⟩ := memory_roomy hr e
        cases a <;> first | cases h2 | skip
        obtain ⟨_, rfl⟩ := guard_some h2
        exact ⟨by simp, by simp, nd.add rfl⟩
      · simp only [needs, hlt, if_false] at hr e
        obtain ⟨h1, h2⟩ := memory_roomy hr e
        cases a <;> first | cases h2 | skip
        obtain ⟨_, rfl⟩ := guard_some h2
        exact ⟨by simp, by simp, nd.add rfl⟩
    · obtain ⟨rfl, rfl⟩ := guard_some e
      exact ⟨by simp, by simp, nd⟩
  | share h =>
    refine ⟨?_, e⟩
    simp only [Ideal.after] at e
    split at e
    · obtain ⟨rfl, rfl⟩ := guard_some e
      exact ⟨by simp, by simp, nd⟩
    · rename_i i o ho
      obtain ⟨rfl, rfl⟩ := guard_some e
      exact ⟨by simp, by simp, nd.set i (fun x hx => by cases hx; exact nd i o (held_obj ho))⟩
  | unpin h =>
    refine ⟨?_, e⟩
    simp only [Ideal.after] at e
    split at e
    · obtain ⟨rfl, rfl⟩ := guard_some e
      exact ⟨by simp, by simp, nd⟩
    · rename_i i o ho
      obtain ⟨rfl, rfl⟩ := guard_some e
      refine ⟨by simp, by simp, ?_⟩
      have nd' : NoDoubt { st with handle := update st.handle h none } := nd
      exact nd'.set i (alive_doubt (nd i o (held_obj ho)))
  | drop i =>
    refine ⟨?_, e⟩
    simp only [Ideal.after] at e
    split at e
    · obtain ⟨rfl, rfl⟩ := guard_some e
      exact ⟨by simp, by simp, nd⟩
    · rename_i o ho
      obtain ⟨rfl, rfl⟩ := guard_some e
      exact ⟨by simp, by simp, nd.set i (alive_doubt (nd i o (pointed_obj ho)))⟩
  | reserve n =>
    refine ⟨?_, e⟩
    simp only [Ideal.after] at e
    split at e
    · obtain ⟨rfl, rfl⟩ := guard_some e
      exact ⟨by simp, by simp, nd⟩
    · obtain ⟨h1, h2⟩ := memory_roomy hr e
      obtain ⟨rfl, rfl⟩ := guard_some h2
      exact ⟨by simp, by simp, nd⟩
  | free n =>
    refine ⟨?_, e⟩
    simp only [Ideal.after] at e
    split at e <;>
    · obtain ⟨rfl, rfl⟩ := guard_some e
      exact ⟨by simp, by simp, nd⟩
  | setLimit n =>
    refine ⟨?_, e⟩
    have hr' : ¬ st.short 0 n := hr
    cases a with
    | oom =>
      simp only [Ideal.after] at e
      exact absurd (guard_some e).1 (not_exhausted hr')
    | done =>
      simp only [Ideal.after, request_roomy hr', Option.some.injEq] at e
      subst e
      exact ⟨by simp, by simp, nd⟩
    | _ => cases e
  | usage ix =>
    refine ⟨?_, e⟩
    by_cases hix : ix ≤ 13
    · cases a with
      | bytes n =>
        simp only [Ideal.after, hix, if_true] at e
        obtain ⟨_, rfl⟩ := guard_some e
        exact ⟨by simp, by simp, nd⟩
      | _ => simp [Ideal.after, hix] at e
    · simp only [Ideal.after, hix, if_false] at e
      obtain ⟨rfl, rfl⟩ := guard_some e
      exact ⟨by simp, by simp, nd⟩
  | write h k v =>
    refine ⟨?_, e⟩
    simp only [Ideal.after] at e
    split at e
    · obtain ⟨rfl, rfl⟩ := guard_some e
      exact ⟨by simp, by simp, nd⟩
    · rename_i i o ho
      split at e
      · obtain ⟨rfl, rfl⟩ := guard_some e
        exact ⟨by simp, by simp, nd.set i (fun x hx => by cases hx; exact nd i o (held_obj ho))⟩
      · obtain ⟨rfl, rfl⟩ := guard_some e
        exact ⟨by simp, by simp, nd⟩
  | read h k =>
    refine ⟨?_, e⟩
    simp only [Ideal.after] at e
    split at e
    · obtain ⟨rfl, rfl⟩ := guard_some e
      exact ⟨by simp, by simp, nd⟩
    · split at e
      · cases a with
        | byte v =>
          obtain ⟨_, rfl⟩ := guard_some e
          exact ⟨by simp, by simp, nd⟩
        | _ => cases e
      · obtain ⟨rfl, rfl⟩ := guard_some e
        exact ⟨by simp, by simp, nd⟩

theorem follow_roomy : ∀ (l : List (Op × Ans)) {st st' : Ideal}, NoDoubt st → Roomy st l → st.follow false l = some st' →
    st.follow true l = some st' ∧ ∀ x ∈ l, x.2 ≠ .oom ∧ x.2 ≠ .lost
  | [], _, _, _, _, h => ⟨h, by simp⟩
  | (op, a) :: l, st, st', nd, hr, h => by
    simp only [Ideal.follow] at h ⊢
    cases e : st.after false op a with
    | none => rw [e] at h; cases h
    | some st1 =>
      rw [e] at h
      obtain ⟨g, e'⟩ := after_roomy nd hr.1 e
      obtain ⟨k1, k2⟩ := follow_roomy l g.2.2 (hr.2 st1 e) h
      rw [e']
      refine ⟨k1, fun x hx => ?_⟩
      rcases List.mem_cons.mp hx with rfl | hx
      · exact ⟨g.1, g.2.1⟩
      · exact k2 x hx

/-- While all that is allocated and reserved stays 2 MiB below the limit, the claim holds: no call is refused memory and
nothing is lost. -/
theorem C94_roomy_partial (limit : Nat) (calls : List (Env × Op))
    (h : Roomy (Ideal.start limit) ((calls.map Prod.snd).zip (run calls (Pool.start limit)).2)) :
    Allowed true limit calls (run calls (Pool.start limit)).2 ∧
      ∀ a ∈ (run calls (Pool.start limit)).2, a ≠ .oom ∧ a ≠ .lost := by
  obtain ⟨st, g, _⟩ := run_follows calls (start_rel limit)
  obtain ⟨k1, k2⟩ := follow_roomy _ (fun i o ho => by simp [Ideal.start] at ho) h g
  refine ⟨⟨run_length _ _, by rw [k1]; rfl⟩, fun a ha => ?_⟩
  have hlen := run_length calls (Pool.start limit)
  obtain ⟨n, hn, rfl⟩ := List.getElem_of_mem ha
  have hz : n < ((calls.map Prod.snd).zip (run calls (Pool.start limit)).2).length := by simp; omega
  have := k2 _ (List.getElem_mem hz)
  simpa using this

/-- `Roomy`, computed. -/
def roomy (st : Ideal) : List (Op × Ans) → Bool
  | [] => true
  | (op, a) :: rest =>
    decide (¬ st.short (needs st op).1 (needs st op).2) && (match st.after false op a with
      | none => true
      | some st' => roomy st' rest)

theorem roomy_sound : ∀ (l : List (Op × Ans)) (st : Ideal), roomy st l = true → Roomy st l
  | [], _, _ => trivial
  | (op, a) :: l, st, h => by
    simp only [roomy, Bool.and_eq_true, decide_eq_true_eq] at h
    refine ⟨h.1, fun st' e => ?_⟩
    have h2 := h.2
    rw [e] at h2
    exact roomy_sound l st' h2

/-- The same calls under a limit of 16 MiB meet the hypothesis of `C94_roomy_partial`: nothing is lost. -/
example : Roomy (Ideal.start 16777216) ((crowded.map Prod.snd).zip (run crowded (Pool.start 16777216)).2) :=
  roomy_sound _ _ (by decide +kernel)

example : (run crowded (Pool.start 16777216)).2 =
    [.block 0, .handle 1 0, .done, .byte 42, .done, .bytes 3145728, .block 1, .handle 3 0, .handle 4 1, .bytes 6291456] := by
  decide +kernel

/-! ### Resizing a buffer -/

/-- Resizing a buffer keeps the bytes in it that fit. -/
def C94_resize_claim : Prop :=
  ∀ (b : Buffer) (n : Nat) (fresh : Nat → UInt8), b.header = 8 → 0 < n → ∀ k, k < b.user.length → k < n →
    (b.resize n fresh).user[k]? = b.user[k]?

/-- All but the last 8 bytes are kept. -/
theorem C94_resize_partial (b : Buffer) (n : Nat) (fresh : Nat → UInt8) (h8 : b.header = 8) (k : Nat)
    (hk : k + 8 < b.user.length) (hn : k < n) : (b.resize n fresh).user[k]? = b.user[k]? := by
  have hs : n + 8 ≤ allocationSize n := by unfold allocationSize; omega
  obtain ⟨d, hd⟩ := b
  simp only at h8
  subst h8
  simp only [Buffer.resize, Buffer.user, List.length_drop] at hk ⊢
  generalize allocationSize n = sz at hs
  simp only [List.getElem?_drop]
  rw [List.getElem?_append_left (by simp; omega), List.getElem?_take]
  rw [if_pos (by omega)]

example : ((⟨List.replicate 4086 0 ++ [5] ++ List.replicate 9 0, 8⟩ : Buffer).resize 8000 (fun _ => 0)).user[4078]? = some 5 := by
  decide +kernel

/-- A buffer of 4096 bytes, the last one 5, made larger: the 5 is gone. -/
theorem C94_resize_fails : ¬ C94_resize_claim := by
  intro h
  have := h ⟨List.replicate 4095 0 ++ [5], 8⟩ 8000 (fun _ => 0) rfl (by decide) 4087 (by decide +kernel) (by decide)
  revert this
  decide +kernel

end Verif.Buf
