import Verif.Base.Res
/-!
Model of the blocking calls of a client, integration/cpp/wrapper_dispatcher.cpp, and of the table of waiting sessions,
integration/cpp/session_blocker.cpp: any number of threads, one slot for the answers, one condition variable.

Simplifications: a session is a number (only equality is used).  The node behind the wrapper answers every request it was
sent once, at any moment and in any order; the answer is named after the request.  Setting the flag and notifying in
`load_finish` are one step.  `output_mtx_` is held by a thread between looking at its flag and going to sleep (`looked`);
everything else done under it is one step.
-/
namespace Verif.Wrapper

/-- `session_id_t`. -/
abbrev Sess := Nat

/-- Which calls wait how: `wait_result`, `wait_size`, `wait`, wrapper_dispatcher.cpp:362-385. -/
inductive Kind where
  | plan | size | load
  deriving DecidableEq

/-- A request: what is waited for, and its number, new for each call. -/
structure Req where
  kind : Kind
  no : Nat
  deriving DecidableEq

/-- What a call returns: the cursor or size that answers the request with this number (or a size never written). -/
inductive Ret where
  | cursor (no : Nat)
  | size (no : Option Nat)
  | nothing
  deriving DecidableEq

/-- Where a thread is. -/
inductive Pc where
  | idle
  /-- Before `set_value(s, false)`, wrapper_dispatcher.cpp:353-360. -/
  | init (s : Sess) (r : Req)
  /-- Before `actor_zeta::send`. -/
  | send (s : Sess) (r : Req)
  /-- Before taking `output_mtx_` and looking at the flag. -/
  | enter (s : Sess) (r : Req)
  /-- The flag was false; `output_mtx_` is held until sleeping. -/
  | looked (s : Sess) (r : Req)
  /-- In `cv_.wait`. -/
  | asleep (s : Sess) (r : Req)
  | done (r : Req) (a : Ret)
  /-- An undefined operation: `cursor_store_->is_error()` of a null pointer. -/
  | crashed (r : Req)
  /-- `at` threw, session_blocker.cpp:44-47. -/
  | threw (r : Req)
  deriving DecidableEq

/-- The wrapper and its callers. -/
structure State where
  pc : Nat → Pc
  /-- `blocker_`. -/
  flag : Sess → Option Bool
  /-- `cursor_store_`, null or a cursor. -/
  cursor : Option Nat
  /-- `size_store_`, not initialised at first. -/
  size : Option Nat
  /-- Requests sent and not answered. -/
  pending : List (Sess × Req)
  /-- The number of the next request. -/
  next : Nat

/-- `wrapper_dispatcher_t::wrapper_dispatcher_t`, wrapper_dispatcher.cpp:18-42. -/
def State.start : State := ⟨fun _ => .idle, fun _ => none, none, none, [], 0⟩

/-- What happens next. -/
inductive Act where
  /-- Thread `t` makes a call with session `s`. -/
  | call (t : Nat) (s : Sess) (k : Kind)
  /-- Thread `t` runs one round of the loop in `init`; `s'` is the session it makes if it must. -/
  | init (t : Nat) (s' : Sess)
  | send (t : Nat)
  /-- Thread `t` takes the mutex and looks at its flag. -/
  | look (t : Nat)
  /-- Thread `t` goes to sleep and gives the mutex back. -/
  | sleep (t : Nat)
  /-- Thread `t` wakes up without reason. -/
  | spurious (t : Nat)
  /-- The `i`-th request is answered. -/
  | answer (i : Nat)

/-- Assignment of one thread's place. -/
def setPc (f : Nat → Pc) (t : Nat) (p : Pc) : Nat → Pc := fun u => if u = t then p else f u

/-- `insert_or_assign`, `erase`. -/
def setFlag (f : Sess → Option Bool) (s : Sess) (b : Option Bool) : Sess → Option Bool := fun x => if x = s then b else f x

/-- `notify_all`: the sleeping threads look again. -/
def wake : Pc → Pc
  | .asleep s r => .enter s r
  | p => p

/-- `output_mtx_` is not held. -/
def Free (st : State) : Prop := ∀ t s r, st.pc t ≠ .looked s r

/-- What a thread that finds its flag set does: `wait_result`, `wait_size`, `wait`, wrapper_dispatcher.cpp:362-385. -/
def take (st : State) (t : Nat) (s : Sess) (r : Req) : State :=
  match r.kind with
  | .plan => match st.cursor with
    | none => { st with pc := setPc st.pc t (.crashed r), flag := setFlag st.flag s none }
    | some n => { st with pc := setPc st.pc t (.done r (.cursor n)), flag := setFlag st.flag s none, cursor := none }
  | .size => { st with pc := setPc st.pc t (.done r (.size st.size)), flag := setFlag st.flag s none }
  | .load => { st with pc := setPc st.pc t (.done r .nothing), flag := setFlag st.flag s none }

/-- The answer to a request is put into its slot: `execute_plan_finish` and `schema_finish`, `size_finish`, `load_finish`,
wrapper_dispatcher.cpp:326-351. -/
def put (st : State) (r : Req) : State :=
  match r.kind with
  | .plan => { st with cursor := some r.no }
  | .size => { st with size := some r.no }
  | .load => st

/-- The flag is set and everybody is notified: `notify`, wrapper_dispatcher.cpp:387-391. -/
def notify (st : State) (s : Sess) : State := { st with flag := setFlag st.flag s (some true), pc := fun t => wake (st.pc t) }

/-- One step. -/
inductive Step : State → Act → State → Prop where
  | call (st t s k) (h : st.pc t = .idle ∨ ∃ r a, st.pc t = .done r a) :
    Step st (.call t s k) { st with pc := setPc st.pc t (.init s ⟨k, st.next⟩), next := st.next + 1 }
  | initNew (st t s' s r) (h : st.pc t = .init s r) (hf : st.flag s = none) :
    Step st (.init t s') { st with pc := setPc st.pc t (.send s r), flag := setFlag st.flag s (some false) }
  | initAgain (st t s' s r b) (h : st.pc t = .init s r) (hf : st.flag s = some b) :
    Step st (.init t s') { st with pc := setPc st.pc t (.init s' r), flag := setFlag st.flag s (some false) }
  | send (st t s r) (h : st.pc t = .send s r) :
    Step st (.send t) { st with pc := setPc st.pc t (.enter s r), pending := st.pending ++ [(s, r)] }
  | lookTrue (st t s r) (h : st.pc t = .enter s r) (hm : Free st) (hf : st.flag s = some true) :
    Step st (.look t) (take st t s r)
  | lookFalse (st t s r) (h : st.pc t = .enter s r) (hm : Free st) (hf : st.flag s = some false) :
    Step st (.look t) { st with pc := setPc st.pc t (.looked s r) }
  | lookThrow (st t s r) (h : st.pc t = .enter s r) (hm : Free st) (hf : st.flag s = none) :
    Step st (.look t) { st with pc := setPc st.pc t (.threw r) }
  | sleep (st t s r) (h : st.pc t = .looked s r) :
    Step st (.sleep t) { st with pc := setPc st.pc t (.asleep s r) }
  | spurious (st t s r) (h : st.pc t = .asleep s r) :
    Step st (.spurious t) { st with pc := setPc st.pc t (.enter s r) }
  | answer (st i s r) (h : st.pending[i]? = some (s, r)) (hm : r.kind ≠ .load → Free st) :
    Step st (.answer i) (notify (put { st with pending := st.pending.eraseIdx i } r) s)

/-- A run. -/
inductive Run : State → List Act → State → Prop where
  | nil (st) : Run st [] st
  | cons {st a st' as st''} (h : Step st a st') (hr : Run st' as st'') : Run st (a :: as) st''

end Verif.Wrapper
