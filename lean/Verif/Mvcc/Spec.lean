import Verif.Mvcc.Model
/-!
Specification of row visibility, without representation: every row has a stamp for its insertion
and possibly one for its deletion; a stamp belongs to a transaction that is still open or carries
the time of its commit.
-/
namespace Verif.Mvcc

/-- Who made a change, and whether it is committed. -/
inductive Stamp where
  | pending (tx : Nat)
  | at (commit : Nat)
  deriving DecidableEq, Repr

/-- A change is seen by a transaction if it was committed before the transaction started, or the
transaction made it itself. -/
def Stamp.seen (t : Txn) : Stamp → Prop
  | .pending tx => tx = t.id
  | .at c => c < t.start

structure Row where
  ins : Stamp
  del : Option Stamp
  deriving DecidableEq, Repr

/-- Snapshot isolation: the insertion is seen and no deletion is. -/
def Row.visible (t : Txn) (r : Row) : Prop :=
  r.ins.seen t ∧ ∀ d, r.del = some d → ¬ d.seen t

/-- The rows of a row group. -/
abbrev Table := List Row

/-- Deleting positions in order by transaction `tx`: rows it has already deleted are skipped, and
the first row deleted by anybody else refuses the call. -/
def Table.delete (tx : Nat) (base : Nat) : List Nat → Table → List Nat → Table × Out
  | [], a, acc => (a, .deleted acc.reverse)
  | p :: ps, a, acc =>
    match a[base + p]? with
    | none => (a, .failed)
    | some r =>
      match r.del with
      | some d => if d = .pending tx then Table.delete tx base ps a acc else (a, .conflict)
      | none => Table.delete tx base ps (a.set (base + p) { r with del := some (.pending tx) }) (p :: acc)

/-- What each call means. -/
def Table.step (a : Table) : Op → Table × Out
  | .append tx s e => (a ++ List.replicate (e - s) ⟨.pending tx, none⟩, .done)
  | .commitAppend c s count =>
    (a.mapIdx fun r row => if s ≤ r ∧ r < s + count then { row with ins := .at c } else row, .done)
  | .delete i tx rows => Table.delete tx (i * CAP) rows a []
  | .commitDelete i c info =>
    (a.mapIdx fun r row =>
      if i * CAP ≤ r ∧ r - i * CAP ∈ info.list then { row with del := some (.at c) } else row, .done)
  | .cleanup _ _ _ => (a, .done)
  | .revert s => (a.take s, .done)

/-- How the calls are meant to be used. `t` is the transaction whose view is considered: clean-up
may only forget stamps older than it. -/
def Legal (t : Txn) (a : Table) : Op → Prop
  | .append tx s e => TXN_START ≤ tx ∧ tx < NOT_DELETED ∧ s = a.length ∧ s < e
  | .commitAppend c s count =>
    -- the rows of one open transaction, together with all its rows in the same vectors
    c < TXN_START ∧ s + count ≤ a.length ∧
      ∃ tx, (∀ r row, a[r]? = some row → s ≤ r → r < s + count → row.ins = .pending tx) ∧
        ∀ r row, a[r]? = some row → row.ins = .pending tx →
          s / CAP ≤ r / CAP → r / CAP ≤ (s + count - 1) / CAP → s ≤ r ∧ r < s + count
  | .delete i tx rows => TXN_START ≤ tx ∧ tx < NOT_DELETED ∧ i * CAP < a.length ∧
      ∀ p, p ∈ rows → p < CAP ∧ i * CAP + p < a.length
  | .commitDelete i c info => c < TXN_START ∧ i * CAP < a.length ∧
      ∃ tx, ∀ p, p ∈ info.list → p < CAP ∧ ∃ row, a[i * CAP + p]? = some row ∧ row.del = some (.pending tx)
  | .cleanup lowest s count => lowest < t.start ∧ s + count ≤ a.length ∧
      -- row 0 of each vector was committed by then (see `C38_cleanup_fails`)
      ∀ i row, s / CAP ≤ i → i ≤ (s + count - 1) / CAP → a[i * CAP]? = some row →
        ∃ c, row.ins = .at c ∧ c ≤ lowest
  | .revert s =>
    -- undo of everything one open transaction appended at the end, before anything was deleted
    s ≤ a.length ∧ ∃ tx, ∀ r row, a[r]? = some row →
      (s ≤ r → row.ins = .pending tx ∧ row.del = none) ∧ (r < s → row.ins ≠ .pending tx)

/-- A history of calls used as meant. -/
def LegalHist (t : Txn) : Table → List Op → Prop
  | _, [] => True
  | a, op :: ops => Legal t a op ∧ LegalHist t (a.step op).1 ops

def Table.run (a : Table) : List Op → Table
  | [] => a
  | op :: ops => (a.step op).1.run ops

def Table.outs (a : Table) : List Op → List Out
  | [] => []
  | op :: ops => (a.step op).2 :: (a.step op).1.outs ops

end Verif.Mvcc
