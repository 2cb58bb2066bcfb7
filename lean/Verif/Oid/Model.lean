import Verif.Base.Bytes
/-!
Model of the identifiers of documents (components/oid/oid.hpp, components/document/document_id.hpp).

Simplifications: an identifier is the list of its twelve bytes; of a `char` only its bits are kept (the ranges tested lie
below 128, so the sign does not matter).  The counter and the random number of the generator are variables of the process
that are read and written without a lock; the model has one thread.
-/
namespace Verif.Oid

/-- `size`, oid.hpp:25 with the sizes 4, 5 and 3 of document_id.hpp:10-14. -/
def size : Nat := 4 + 5 + 3

/-- `to_char_`, oid.hpp:116-121. -/
def toChar (v : UInt8) : UInt8 := if v < 10 then 48 + v else 97 + v - 10

/-- `from_char_`, oid.hpp:123-131. -/
def fromChar (c : UInt8) : UInt8 :=
  if 48 ≤ c ∧ c ≤ 57 then c - 48 else if 97 ≤ c ∧ c ≤ 102 then c + 10 - 97 else c + 10 - 65

/-- The characters `is_valid` accepts, oid.hpp:253-255. -/
def hexChar (c : UInt8) : Bool := (48 ≤ c && c ≤ 57) || (97 ≤ c && c ≤ 102) || (65 ≤ c && c ≤ 70)

/-- `is_valid`, oid.hpp:248-256. -/
def isValid (s : Bytes) : Bool := s.length == 2 * size && s.all hexChar

/-- The loop of `init`, oid.hpp:261-263. -/
def pairs : Bytes → Bytes
  | a :: b :: s => (fromChar a * 16 + fromChar b) :: pairs s
  | _ => []

/-- `init`, oid.hpp:258-267, with `clear`, oid.hpp:269-272. -/
def init (s : Bytes) : Bytes := if isValid s then pairs s else List.replicate size 0

/-- `to_string`, oid.hpp:205-213. -/
def text : Bytes → Bytes
  | [] => []
  | b :: bs => toChar (b / 16) :: toChar (b % 16) :: text bs

/-- `compare`, oid.hpp:185-188: `memcmp`. -/
def compare : Bytes → Bytes → Int
  | a :: as, b :: bs => if a < b then -1 else if b < a then 1 else compare as bs
  | _, _ => 0

/-- `operator==`, oid.hpp:238-241. -/
def eq (a b : Bytes) : Bool := compare a b == 0

/-- `operator<`, oid.hpp:243-246. -/
def lt (a b : Bytes) : Bool := decide (compare a b < 0)

/-- `is_null`, oid.hpp:190-198. -/
def isNull (d : Bytes) : Bool := d.all (· == 0)

/-- The `n` low bytes of a number, the highest first: the loops of the generators, oid.hpp:60-64, 72-74, 91-93. -/
def low : Nat → Nat → Bytes
  | 0, _ => []
  | n + 1, v => UInt8.ofNat (v / 256 ^ n) :: low n v

/-- `get_timestamp`, oid.hpp:215-222. -/
def timestamp (d : Bytes) : Nat := (d.take 4).foldl (fun v b => (v * 256 + b.toNat) % 2 ^ 32) 0

/-- The static generators of the process once they are made: `value_` of `random_generator` and of `increment_generator`,
oid.hpp:78, 97. -/
structure Gen where
  random : Nat
  counter : UInt32

/-- The first use, oid.hpp:80-84, 99: `srandom` with the time, two numbers of `random()` after it.  `rng seed n` is the
`n`-th number after `srandom(seed)`. -/
def start (rng : UInt32 → Nat → Nat) (now : UInt32) : Gen := ⟨rng now 0, UInt32.ofNat (rng now 1)⟩

/-- `oid_t(timestamp)`, oid.hpp:140-145. -/
def mint (g : Gen) (stamp : UInt32) : Bytes × Gen :=
  (low 4 stamp.toNat ++ low 5 g.random ++ low 3 (g.counter + 1).toNat, { g with counter := g.counter + 1 })

/-- Identifiers made one after the other at the times given. -/
def mintAll : Gen → List UInt32 → List Bytes
  | _, [] => []
  | g, t :: ts => (mint g t).1 :: mintAll (mint g t).2 ts

/-- The identifiers a process makes with `oid_t()`, oid.hpp:133-138, at the times given: the generators are made at the
first. -/
def ids (rng : UInt32 → Nat → Nat) : List UInt32 → List Bytes
  | [] => []
  | t :: ts => mintAll (start rng t) (t :: ts)

end Verif.Oid
