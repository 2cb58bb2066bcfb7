import Verif.Wal.Model
/-!
Specification side of the log properties C01–C06: what a history of logged operations means,
independent of bytes and offsets.
-/
namespace Verif.Wal
open Verif

/-- The operations logged by a history, in order. -/
def opsOf : List Event → List Op
  | [] => []
  | .log op :: es => op :: opsOf es
  | .reopen :: es => opsOf es

/-- The operations of a history with the ids a fresh log gives them: 1, 2, 3, … -/
def numbered (es : List Event) : List (Nat × Op) := ((opsOf es).zipIdx 1).map fun p => (p.2, p.1)

/-- What replay after id `k` has to deliver. -/
def expectedAfter (es : List Event) (k : Nat) : List (Nat × Op) := (numbered es).filter fun p => k < p.1

/-- What an entry handed to the dispatcher says: its id and operation, or nothing usable. -/
def view : Entry → Option (Nat × Op)
  | .op _ id op => some (id, op)
  | .null => none

/-- An operation the 16-bit length field can hold whatever its id and predecessor checksum:
the encoded node and parameters take at most 65520 bytes together (65535 minus 1 byte array
header, at most 5 bytes checksum and 9 bytes id). -/
def Fits (op : Op) : Prop :=
  Msgpack.WF op.node ∧ Msgpack.WF op.params ∧
    (Msgpack.encode op.node).length + (Msgpack.encode op.params).length ≤ 65520

/-- The log file that does not exist yet. -/
def emptyLog : Wal := ⟨[], 0, 0⟩

/-- Ids reported to the clients (`send_success`, services/wal/wal.cpp:146-151) over a history. -/
def ackedIds (w : Wal) : List Event → Res (List Nat)
  | [] => .ok []
  | .log op :: es =>
    match ackedIds (append w op) es with
    | .ok ids => .ok ((append w op).id :: ids)
    | r => r
  | .reopen :: es =>
    match openLog w.file with
    | .ok w' => ackedIds w' es
    | .throws => .throws
    | .ub => .ub
    | .diverges => .diverges

end Verif.Wal
