import Verif.ChunkOp.Spec
import Verif.ChunkOp.GroupModel
/-!
What grouping has to return.
-/
namespace Verif.ChunkOp
open Verif Verif.Num Verif.PhysKey Verif.LogVal

/-- Types without rounding: truth values, integers and texts. -/
def Ty.exact : Ty → Prop
  | .float => False
  | .double => False
  | _ => True

/-- Each element once, in the order of first appearance. -/
def firsts {α : Type} [DecidableEq α] : List α → List α
  | [] => []
  | x :: xs => x :: (firsts xs).filter fun y => decide (y ≠ x)

/-- The cells of a row under the columns to group by. -/
def keyCells (cs : Cols) (keys : List GKey) (r : Row) : Row := keys.map fun k => (cell cs r k.field).getD none

/-- The rows of a group. -/
def members (cs : Cols) (keys : List GKey) (rows : List Row) (key : Row) : List Row := rows.filter fun r => decide (keyCells cs keys r = key)

/-- The values of a column, without NULLs. -/
def colVals (cs : Cols) (f : Bytes) (rows : List Row) : List LV := rows.filterMap fun r => (cell cs r f).getD none

/-- One value is less than another one. -/
def less (v w : LV) : Prop := ∃ a b, meaning v = some a ∧ meaning w = some b ∧ before a b = true

/-- What an aggregate over rows is: the number of rows; the sum of the integers of a column and their mean; a value of the
column that no other is less or greater than. -/
def Agg.is (fl : Fl) (cs : Cols) (rows : List Row) (v : LV) : Agg → Prop
  | .count => v = .int .u64 rows.length
  | .sum f => ∃ (t t' : ITy) (ns : List Int), colVals cs f rows = ns.map (LV.int t) ∧ v = .int t' ns.sum
  | .avg f => ∃ (t : ITy) (ns : List Int), colVals cs f rows = ns.map (LV.int t) ∧ v = .double (fl.div (ofInt 53 ns.sum) (ofInt 53 ns.length))
  | .min f => v ∈ colVals cs f rows ∧ ∀ w ∈ colVals cs f rows, ¬ less w v
  | .max f => v ∈ colVals cs f rows ∧ ∀ w ∈ colVals cs f rows, ¬ less v w

/-- The columns of an aggregate are there and have a type it can be taken of. -/
def Agg.Sound (cs : Cols) : Agg → Prop
  | .count => True
  | .sum f => ∃ t, tyOf cs f = some (.int t)
  | .avg f => ∃ t, tyOf cs f = some (.int t)
  | .min f => ∃ ty, tyOf cs f = some ty ∧ ty.exact
  | .max f => ∃ ty, tyOf cs f = some ty ∧ ty.exact

/-- Sums are over columns of at least 32 bits. -/
def Agg.Wide (cs : Cols) : Agg → Prop
  | .sum f => ∀ t, tyOf cs f = some (.int t) → 32 ≤ t.bits
  | .avg f => ∀ t, tyOf cs f = some (.int t) → 32 ≤ t.bits
  | _ => True

/-- The sums of the rows, from the first one on, stay in the range of the type. -/
def Agg.Small (cs : Cols) (rows : List Row) : Agg → Prop
  | .sum f => ∀ (t : ITy) (ns : List Int), colVals cs f rows = ns.map (LV.int t) → ∀ k, t.fits (ns.take k).sum
  | .avg f => ∀ (t : ITy) (ns : List Int), colVals cs f rows = ns.map (LV.int t) → ∀ k, t.fits (ns.take k).sum
  | _ => True

/-- A row of the result for a group: the key, then the aggregates over the rows of the group. -/
def GroupRow (fl : Fl) (cs : Cols) (keys : List GKey) (aggs : List Agg) (rows : List Row) (key row : Row) : Prop :=
  ∃ vs : List LV, row = key ++ vs.map some ∧ List.Forall₂ (fun a v => Agg.is fl cs (members cs keys rows key) v a) aggs vs

/-- The groups: without columns to group by there is one. -/
def groupKeys (cs : Cols) (keys : List GKey) (rows : List Row) : List Row :=
  if keys = [] then [[]] else firsts (rows.map (keyCells cs keys))

end Verif.ChunkOp
