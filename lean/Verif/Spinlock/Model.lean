/-!
Model of core/spinlock/spinlock.cpp: `shared_spinlock` and `spin_lock`, as interleavings of the
atomic operations of any number of threads.

All `std::atomic` operations used are sequentially consistent (default order) for
`shared_spinlock`; the acquire/release `atomic_flag` of `spin_lock` is modelled as atomic too.
The C++ memory model for the data protected by the locks is not modelled. A thread calls the
lock functions correctly paired (as `unique_lock`/`shared_lock`, spinlock.hpp:41-103, do).
-/
namespace Verif.Spinlock

/-- `min_long()`, spinlock.cpp:5. -/
def minLong : Int := -9223372036854775808

/-- Where a thread is: between two atomic operations. `v` is the local variable `v`. -/
inductive Pc where
  | idle
  /-- about to execute the first `flag_.load()` of `lock`, spinlock.cpp:21 -/
  | lock0
  /-- in the loop of `lock`, spinlock.cpp:22-29 -/
  | lockLoop (v : Int)
  /-- about to execute the load of `try_lock`, spinlock.cpp:49 -/
  | tryLock0
  /-- about to evaluate spinlock.cpp:50 -/
  | tryLock1 (v : Int)
  /-- spinlock.cpp:54 -/
  | shared0
  /-- spinlock.cpp:55-63 -/
  | sharedLoop (v : Int)
  /-- spinlock.cpp:69 -/
  | tryShared0
  /-- spinlock.cpp:70 -/
  | tryShared1 (v : Int)
  /-- inside the exclusive section -/
  | holdX
  /-- inside the shared section (`lock_upgrade` is `lock_shared`, spinlock.cpp:32) -/
  | holdS
  deriving DecidableEq, Repr

/-- What a thread does next. -/
inductive Act where
  | callLock | callTryLock | callShared | callTryShared
  /-- next atomic operation inside the function being executed; `spurious` lets a weak
  compare-exchange fail although the values agree -/
  | go (spurious : Bool)
  | unlock | unlockShared
  /-- `unlock_upgrade_and_lock`, spinlock.cpp:36-39 -/
  | upgrade
  /-- `unlock_and_lock_upgrade`, spinlock.cpp:41-44 -/
  | downgrade
  deriving DecidableEq, Repr

/-- The shared word and the threads. -/
structure State where
  flag : Int
  threads : List Pc
  deriving DecidableEq, Repr

/-- `n` threads, lock just constructed (spinlock.cpp:17-18). -/
def init (n : Nat) : State := ⟨0, List.replicate n .idle⟩

/-- One atomic step of a thread at `pc` seeing `flag`: the new flag and position. `none` when the
action makes no sense there. -/
def stepPc (flag : Int) : Pc → Act → Option (Int × Pc)
  | .idle, .callLock => some (flag, .lock0)
  | .idle, .callTryLock => some (flag, .tryLock0)
  | .idle, .callShared => some (flag, .shared0)
  | .idle, .callTryShared => some (flag, .tryShared0)
  | .lock0, .go _ => some (flag, .lockLoop flag)
  | .lockLoop v, .go spurious =>
    if v ≠ 0 then some (flag, .lockLoop flag)
    else if flag = v ∧ spurious = false then some (minLong, .holdX)
    else some (flag, .lockLoop flag)
  | .tryLock0, .go _ => some (flag, .tryLock1 flag)
  | .tryLock1 v, .go spurious =>
    if v = 0 ∧ flag = v ∧ spurious = false then some (minLong, .holdX) else some (flag, .idle)
  | .shared0, .go _ => some (flag, .sharedLoop flag)
  | .sharedLoop v, .go spurious =>
    if v < 0 then some (flag, .sharedLoop flag)
    else if flag = v ∧ spurious = false then some (v + 1, .holdS)
    else some (flag, .sharedLoop flag)
  | .tryShared0, .go _ => some (flag, .tryShared1 flag)
  | .tryShared1 v, .go spurious =>
    if 0 ≤ v ∧ flag = v ∧ spurious = false then some (v + 1, .holdS) else some (flag, .idle)
  | .holdX, .unlock => some (0, .idle)
  | .holdX, .downgrade => some (0, .shared0)
  | .holdS, .unlockShared => some (flag - 1, .idle)
  | .holdS, .upgrade => some (flag - 1, .lock0)
  | _, _ => none

/-- Thread `i` performs `a`. -/
def step (s : State) (i : Nat) (a : Act) : Option State :=
  match s.threads[i]? with
  | none => none
  | some pc =>
    match stepPc s.flag pc a with
    | none => none
    | some (f, pc') => some ⟨f, s.threads.set i pc'⟩

/-- Run a schedule; impossible steps are refused. -/
def run (s : State) : List (Nat × Act) → Option State
  | [] => some s
  | (i, a) :: rest => (step s i a).bind (run · rest)

/-! `spin_lock`, spinlock.cpp:7-10. -/

/-- Thread position for `spin_lock`. -/
inductive SPc where
  | idle | spinning | hold
  deriving DecidableEq, Repr

/-- The flag and the threads. -/
structure SState where
  flag : Bool
  threads : List SPc
  deriving DecidableEq, Repr

/-- One atomic step of a thread: call `lock`, one `test_and_set` (spinlock.cpp:8), or `unlock`
(spinlock.cpp:10); which one is determined by the position. -/
def sstepPc (flag : Bool) : SPc → Bool × SPc
  | .idle => (flag, .spinning)
  | .spinning => if flag then (true, .spinning) else (true, .hold)
  | .hold => (false, .idle)

/-- Thread `i` takes a step. -/
def sstep (s : SState) (i : Nat) : SState :=
  match s.threads[i]? with
  | none => s
  | some pc => ⟨(sstepPc s.flag pc).1, s.threads.set i (sstepPc s.flag pc).2⟩

/-- A schedule is a list of thread numbers. -/
def srun (s : SState) (sched : List Nat) : SState := sched.foldl sstep s

def sinit (n : Nat) : SState := ⟨false, List.replicate n .idle⟩

end Verif.Spinlock
