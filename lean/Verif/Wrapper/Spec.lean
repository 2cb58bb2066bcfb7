import Verif.Wrapper.Model
/-!
What a caller may expect.
-/
namespace Verif.Wrapper

/-- The session and request a thread has sent and waits for. -/
def Pc.waits : Pc → Option (Sess × Req)
  | .enter s r => some (s, r)
  | .looked s r => some (s, r)
  | .asleep s r => some (s, r)
  | _ => none

/-- The answer to a request. -/
def Req.own (r : Req) : Ret :=
  match r.kind with
  | .plan => .cursor r.no
  | .size => .size (some r.no)
  | .load => .nothing

/-- No call failed and every call that returned, returned the answer to its own request. -/
def Right (st : State) : Prop :=
  ∀ t, (∀ r a, st.pc t = .done r a → a = r.own) ∧ (∀ r, st.pc t ≠ .crashed r) ∧ (∀ r, st.pc t ≠ .threw r)

/-- A run all of whose steps meet a condition. -/
inductive RunIf (ok : State → Act → Prop) : State → List Act → State → Prop where
  | nil (st) : RunIf ok st [] st
  | cons {st a st' as st''} (hok : ok st a) (h : Step st a st') (hr : RunIf ok st' as st'') : RunIf ok st (a :: as) st''

/-- A call does not use the session of another call whose answer has arrived and was not picked up yet. -/
def FreshSession (st : State) (a : Act) : Prop :=
  match a with
  | .init t _ => ∀ s r, st.pc t = .init s r → ∀ t' r', (st.pc t').waits = some (s, r') → (s, r') ∈ st.pending
  | _ => True

/-- An answer arrives only when all earlier answers of its kind were picked up. -/
def OneAnswer (st : State) (a : Act) : Prop :=
  match a with
  | .answer i => ∀ s r, st.pending[i]? = some (s, r) → ∀ t s' r', (st.pc t).waits = some (s', r') → r'.kind = r.kind →
      (s', r') ∈ st.pending
  | _ => True

/-- No call of `load`. -/
def NoLoad (a : Act) : Prop :=
  match a with
  | .call _ _ k => k ≠ .load
  | _ => True

/-- The answer a thread waits for has arrived. -/
def Answered (st : State) (t : Nat) : Prop := ∃ s r, (st.pc t).waits = some (s, r) ∧ (s, r) ∉ st.pending

/-- The thread does not wait any more. -/
def Back (st : State) (t : Nat) : Prop := (st.pc t).waits = none

end Verif.Wrapper
