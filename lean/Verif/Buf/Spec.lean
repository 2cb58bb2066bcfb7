import Verif.Buf.Model
/-!
What a client of the buffer manager may expect, told without counters, queues and evictions: objects with contents, and for
each call the answers that are allowed.
-/
namespace Verif.Buf

/-- Something allocated: its tag, the bytes it may hold, the memory it takes, whether it is small, whether the client
allowed it to be thrown away (`spare`), the bytes written to it, how many block pointers and buffer handles there are to it;
`doubt`: since it was last held by a buffer handle, memory was asked for when it was short. -/
structure Obj where
  tag : Nat
  size : Nat
  cost : Nat
  small : Bool
  spare : Bool
  cell : Nat → Option UInt8
  refs : Nat
  pins : Nat
  doubt : Bool

/-- Everything allocated, by number, and every buffer handle, by number, with the object it holds. -/
structure Ideal where
  limit : Nat
  reserved : Nat
  next : Nat
  nextH : Nat
  obj : Nat → Option Obj
  handle : Nat → Option Nat

def Ideal.start (limit : Nat) : Ideal := ⟨limit, 0, 0, 0, fun _ => none, fun _ => none⟩

/-- The sum of the first `n` numbers of `f`. -/
def sumN (f : Nat → Nat) : Nat → Nat
  | 0 => 0
  | n + 1 => sumN f n + f n

/-- The sum of `f` over all objects. -/
def Ideal.total (st : Ideal) (f : Obj → Nat) : Nat := sumN (fun i => (st.obj i).elim 0 f) st.next

/-- An object that must stay in memory: a small one, or one a buffer handle holds. -/
def Obj.stays (o : Obj) : Bool := o.small || 0 < o.pins

/-- The memory it takes, counted under `ix`: a tag, or 13 for the total. -/
def Obj.under (ix : Nat) (o : Obj) : Nat := if ix = 13 ∨ o.tag = ix then o.cost else 0

/-- What is reserved, counted under `ix`: reservations have tag 11. -/
def Ideal.reservedUnder (ix : Nat) (st : Ideal) : Nat := if ix = 13 ∨ ix = 11 then st.reserved else 0

/-- Each of the 64 caches of the counters hides less than 32 KiB. -/
def slack : Nat := 64 * 32767

/-- Memory is short for a request: all that is allocated may not fit in beside it. -/
def Ideal.short (st : Ideal) (need limit : Nat) : Prop := limit < slack + need + st.reserved + st.total Obj.cost

/-- There is not enough memory for a request even if all that need not stay is thrown away. -/
def Ideal.exhausted (st : Ideal) (need limit : Nat) : Prop :=
  limit < slack + need + st.reserved + st.total (fun o => if o.stays then o.cost else 0)

instance (st : Ideal) (n l : Nat) : Decidable (st.short n l) := Nat.decLt _ _
instance (st : Ideal) (n l : Nat) : Decidable (st.exhausted n l) := Nat.decLt _ _

/-- A request for memory: if memory is short, objects that need not stay are in doubt. -/
def Ideal.request (st : Ideal) (need limit : Nat) : Ideal :=
  if st.short need limit then
    { st with obj := fun i => (st.obj i).map fun o => if o.stays then o else { o with doubt := true } }
  else st

def Ideal.set (st : Ideal) (i : Nat) (o : Option Obj) : Ideal := { st with obj := Function.update st.obj i o }

/-- An object nobody has a pointer or handle to is gone. -/
def Obj.alive (o : Obj) : Option Obj := if o.refs + o.pins = 0 then none else some o

def Ideal.add (st : Ideal) (o : Obj) : Ideal := { st.set st.next (some o) with next := st.next + 1 }

def Ideal.addHandle (st : Ideal) (i : Nat) : Ideal :=
  { st with handle := Function.update st.handle st.nextH (some i), nextH := st.nextH + 1 }

/-- A block's memory: the bytes asked for and 8 more, rounded up to sectors of 4096. -/
def blockCost (size : Nat) : Nat := 4096 * ((4095 + (8 + size)) / 4096)

/-- An object as allocated. -/
def smallObj (tag size : Nat) : Obj := ⟨tag, size, size, true, false, fun _ => none, 1, 0, false⟩
def blockObj (tag size : Nat) (spare : Bool) (refs pins : Nat) : Obj :=
  ⟨tag, blockCost size - 8, blockCost size, false, spare, fun _ => none, refs, pins, false⟩

/-- An answer is allowed under a condition. -/
def guard' (p : Prop) [Decidable p] (st : Ideal) : Option Ideal := if p then some st else none

/-- The object a buffer handle holds. -/
def Ideal.held (st : Ideal) (h : Nat) : Option (Nat × Obj) :=
  match st.handle h with
  | none => none
  | some i => (st.obj i).map fun o => (i, o)

/-- The object of a block pointer a client has. -/
def Ideal.pointed (st : Ideal) (i : Nat) : Option Obj :=
  match st.obj i with
  | some o => if o.refs = 0 then none else some o
  | none => none

/-- The answer allowed to a request for memory: success, or "out of memory" if there really is not enough. -/
def Ideal.memory (st : Ideal) (need : Nat) (ans : Ans) (ok : Ideal → Option Ideal) : Option Ideal :=
  match ans with
  | .oom => guard' (st.exhausted need st.limit) (st.request need st.limit)
  | _ => ok (st.request need st.limit)

/-- The state after a call and its answer; `none` if the answer is not allowed.  With `strict`, an object is lost only if
the client allowed it to be thrown away. -/
def Ideal.after (strict : Bool) (st : Ideal) : Op → Ans → Option Ideal
  | .small tag size, ans =>
    if tag < 13 then
      st.memory size ans fun st' => match ans with
        | .block i => guard' (i = st.next) (st'.add (smallObj tag size))
        | _ => none
    else guard' (ans = .noSuch) st
  | .allocate tag size spare, ans =>
    if tag < 13 ∧ 0 < size then
      st.memory (blockCost size) ans fun st' => match ans with
        | .handle h i => guard' (h = st.nextH ∧ i = st.next) ((st'.add (blockObj tag size spare 0 1)).addHandle i)
        | _ => none
    else guard' (ans = .noSuch) st
  | .transient size blockSize, ans =>
    if size ≤ blockSize ∧ 0 < size then
      if size < blockSize then
        st.memory size ans fun st' => match ans with
          | .block i => guard' (i = st.next) (st'.add (smallObj 9 size))
          | _ => none
      else
        st.memory (blockCost size) ans fun st' => match ans with
          | .block i => guard' (i = st.next)
              { st'.add (blockObj 9 size false 1 0) with nextH := st'.nextH + 1 }
          | _ => none
    else guard' (ans = .noSuch) st
  | .share h, ans =>
    match st.held h with
    | none => guard' (ans = .noSuch) st
    | some (i, o) => guard' (ans = .done) (st.set i (some { o with refs := o.refs + 1 }))
  | .pin i, ans =>
    match st.pointed i with
    | none => guard' (ans = .noSuch) st
    | some o =>
      match ans with
      | .handle h j =>
        guard' (h = st.nextH ∧ j = i) ((st.set i (some { o with pins := o.pins + 1, doubt := false })).addHandle i)
      | .oom => guard' (o.doubt ∧ ¬ (strict ∧ ¬ o.spare) ∧ st.exhausted o.cost st.limit) (st.request o.cost st.limit)
      | .lost => guard' (o.doubt ∧ ¬ (strict ∧ ¬ o.spare)) (st.request o.cost st.limit)
      | _ => none
  | .unpin h, ans =>
    match st.held h with
    | none => guard' (ans = .noSuch) st
    | some (i, o) =>
      guard' (ans = .done) ({ st with handle := Function.update st.handle h none }.set i { o with pins := o.pins - 1 }.alive)
  | .drop i, ans =>
    match st.pointed i with
    | none => guard' (ans = .noSuch) st
    | some o => guard' (ans = .done) (st.set i { o with refs := o.refs - 1 }.alive)
  | .reserve n, ans =>
    if n = 0 then guard' (ans = .done) st
    else st.memory n ans fun st' => guard' (ans = .done) { st' with reserved := st.reserved + n }
  | .free n, ans =>
    if st.reserved < n then guard' (ans = .noSuch) st else guard' (ans = .done) { st with reserved := st.reserved - n }
  | .setLimit n, ans =>
    match ans with
    | .oom => guard' (st.exhausted 0 n) (st.request 0 n)
    | .done => some { st.request 0 n with limit := n }
    | _ => none
  | .usage ix, ans =>
    if ix ≤ 13 then
      match ans with
      | .bytes n =>
        guard' (st.total (fun o => if o.stays then o.under ix else 0) + st.reservedUnder ix ≤ n ∧
          n ≤ st.total (Obj.under ix) + st.reservedUnder ix ∧ (ix = 13 → n ≤ slack + st.limit)) st
      | _ => none
    else guard' (ans = .noSuch) st
  | .write h k v, ans =>
    match st.held h with
    | none => guard' (ans = .noSuch) st
    | some (i, o) =>
      if k < o.size then guard' (ans = .done) (st.set i (some { o with cell := Function.update o.cell k (some v) }))
      else guard' (ans = .noSuch) st
  | .read h k, ans =>
    match st.held h with
    | none => guard' (ans = .noSuch) st
    | some (_, o) =>
      if k < o.size then
        match ans with
        | .byte v => guard' (o.cell k = none ∨ o.cell k = some v) st
        | _ => none
      else guard' (ans = .noSuch) st

/-- The state after a history; `none` if an answer in it is not allowed. -/
def Ideal.follow (strict : Bool) (st : Ideal) : List (Op × Ans) → Option Ideal
  | [] => some st
  | (op, a) :: rest => (st.after strict op a).bind fun st' => st'.follow strict rest

/-- The answers of a history are allowed: one for each call, each allowed after those before it. -/
def Allowed (strict : Bool) (limit : Nat) (calls : List (Env × Op)) (answers : List Ans) : Prop :=
  answers.length = calls.length ∧ ((Ideal.start limit).follow strict ((calls.map Prod.snd).zip answers)).isSome

/-- The memory a call asks for, and under which limit. -/
def needs (st : Ideal) : Op → Nat × Nat
  | .small _ size => (size, st.limit)
  | .allocate _ size _ => (blockCost size, st.limit)
  | .transient size blockSize => (if size < blockSize then size else blockCost size, st.limit)
  | .reserve n => (n, st.limit)
  | .setLimit n => (0, n)
  | _ => (0, slack + st.limit + st.total Obj.cost + st.reserved)

/-- Memory is never short in a history. -/
def Roomy (st : Ideal) : List (Op × Ans) → Prop
  | [] => True
  | (op, a) :: rest =>
    ¬ st.short (needs st op).1 (needs st op).2 ∧ ∀ st', st.after false op a = some st' → Roomy st' rest

end Verif.Buf
