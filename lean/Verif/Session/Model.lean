import Verif.Base.Res
/-!
Model of making sessions, components/session/session.cpp: any number of threads.
-/
namespace Verif.Session

/-- `session_id_t`, components/session/session.hpp:28-30: the time in seconds and a number, both of 64 bits. -/
structure Id where
  data : Nat
  counter : Nat
  deriving DecidableEq

/-- Where a thread is in `session_id_t::session_id_t`, session.cpp:27-33, which it entered at moment `start`. -/
inductive Pc where
  | out
  /-- Before `fetch_add`. -/
  | begun (start : Nat)
  /-- Before reading the counter again. -/
  | added (start : Nat)
  /-- Before asking for the time. -/
  | read (start : Nat) (counter : Nat)

/-- A session that was made, and when. -/
structure Made where
  start : Nat
  stop : Nat
  id : Id

/-- `uniq_counter` (session.cpp:8), the threads, the sessions made so far, and the number of steps so far. -/
structure State where
  counter : Nat
  pc : Nat → Pc
  made : List Made
  now : Nat

def State.start : State := ⟨0, fun _ => .out, [], 0⟩

inductive Act where
  | enter (t : Nat)
  | add (t : Nat)
  | read (t : Nat)
  /-- `std::time` gives `time`. -/
  | leave (t : Nat) (time : Nat)

def setPc (f : Nat → Pc) (t : Nat) (p : Pc) : Nat → Pc := fun u => if u = t then p else f u

/-- One step; 64-bit numbers wrap around. -/
def step (st : State) (a : Act) : Option State :=
  match a with
  | .enter t => match st.pc t with
    | .out => some { st with pc := setPc st.pc t (.begun st.now), now := st.now + 1 }
    | _ => none
  | .add t => match st.pc t with
    | .begun b => some { st with counter := st.counter + 1, pc := setPc st.pc t (.added b), now := st.now + 1 }
    | _ => none
  | .read t => match st.pc t with
    | .added b => some { st with pc := setPc st.pc t (.read b (st.counter % 2 ^ 64)), now := st.now + 1 }
    | _ => none
  | .leave t time => match st.pc t with
    | .read b c => some { st with pc := setPc st.pc t .out, made := st.made ++ [⟨b, st.now, ⟨time % 2 ^ 64, c⟩⟩], now := st.now + 1 }
    | _ => none

/-- A run. -/
def run (st : State) : List Act → Option State
  | [] => some st
  | a :: as => (step st a).bind fun st' => run st' as

end Verif.Session
