import Verif.Validity.Model
/-!
# Comparing two vectors row by row, for C116

`/repo/components/vector/vector_operations.hpp:9-333, 366-407`.  `T` is the C++ type of the rows and `cmp` the comparison.  The rows
of a vector are a function: reading behind its data is not modelled, reading behind its null mask is.  Of a selection the rows
counted are kept, in order; the row that may be written behind them (vector_operations.hpp:61, 65) is not looked at by anyone.
Vectors of the kind SEQUENCE are not modelled.
-/
namespace Verif.VecSel

open Verif Verif.Validity

/-- `vector_type`, vector.hpp:82-88. -/
inductive Kind where
  | flat
  | constant
  | dictionary
  deriving DecidableEq

/-- A vector; `data` and `mask` of a dictionary are those of the flat vector it refers to, `sel` is its indexing. -/
structure Vec (T : Type) where
  kind : Kind
  data : Nat → T
  mask : Mask
  sel : Nat → Nat

/-- The rows for which the comparison holds and the others. -/
structure Out where
  yes : List Nat
  no : List Nat
  deriving DecidableEq

/-- One row is put into one of the two, vector_operations.hpp:59-67. -/
def Out.put (o : Out) (i : Nat) (b : Bool) : Out :=
  if b then { o with yes := o.yes ++ [i] } else { o with no := o.no ++ [i] }

/-- A loop over rows. -/
def scan (p : Nat → Bool) (o : Out) (is : List Nat) : Out := is.foldl (fun o i => o.put i (p i)) o

/-- `get_validity_entry`, validation.cpp:299-304. -/
def entry (m : Mask) (e : Nat) : Res Word :=
  match m.words with
  | none => .ok maxEntry
  | some ws => match ws[e]? with
    | none => .ub
    | some w => .ok w

/-- `selection_flat_loop`, vector_operations.hpp:36-105: `k` entries of the mask are left, the next is `e` and its first row
`base`. -/
def flatLoop (p : Nat → Bool) (m : Mask) (count : Nat) : Nat → Nat → Nat → Out → Res Out
  | 0, _, _, o => .ok o
  | k + 1, e, base, o =>
    (entry m e).bind fun w =>
    let next := min (base + 64) count
    let is := List.range' base (next - base)
    let o :=
      if w = maxEntry then scan p o is
      else if w = 0#64 then scan (fun _ => false) o is
      else scan (fun i => decide (w &&& (1#64 <<< (i - base)) ≠ 0#64) && p i) o is
    flatLoop p m count k (e + 1) next o

/-- What is given back: how many rows fit, with the selections asked for (vector_operations.hpp:100-104, 212-216).  If neither
is, the loops write through a null pointer (vector_operations.hpp:128-129, 247-248). -/
def report (wantYes wantNo : Bool) (count : Nat) (o : Out) : Res (Nat × Out) :=
  if wantYes then .ok (o.yes.length, o)
  else if wantNo then .ok (count - o.no.length, o)
  else .ub

/-- All rows in one of the two (vector_operations.hpp:18-24, 26-31, 148-153). -/
def all (count : Nat) (b : Bool) : Nat × Out :=
  if b then (count, ⟨List.range count, []⟩) else (0, ⟨[], List.range count⟩)

/-- `select_const`, vector_operations.hpp:10-33. -/
def selectConst {T : Type} (cmp : T → T → Bool) (l r : Vec T) (count : Nat) : Res (Nat × Out) :=
  (rowIsValid l.mask 0).bind fun a =>
  if !a then .ok (all count false)
  else
    (rowIsValid r.mask 0).bind fun b =>
    if !b then .ok (all count false) else .ok (all count (cmp (l.data 0) (r.data 0)))

/-- `select_flat<T, COMP, true, false>`, vector_operations.hpp:138-162. -/
def selectLeft {T : Type} (cmp : T → T → Bool) (l r : Vec T) (wy wn : Bool) (count : Nat) : Res (Nat × Out) :=
  (rowIsValid l.mask 0).bind fun a =>
  if !a then .ok (all count false)
  else (flatLoop (fun i => cmp (l.data 0) (r.data i)) r.mask count (entryCount count) 0 0 ⟨[], []⟩).bind (report wy wn count)

/-- `select_flat<T, COMP, false, true>`, vector_operations.hpp:138-169. -/
def selectRight {T : Type} (cmp : T → T → Bool) (l r : Vec T) (wy wn : Bool) (count : Nat) : Res (Nat × Out) :=
  (rowIsValid r.mask 0).bind fun b =>
  if !b then .ok (all count false)
  else (flatLoop (fun i => cmp (l.data i) (r.data 0)) l.mask count (entryCount count) 0 0 ⟨[], []⟩).bind (report wy wn count)

/-- `select_flat<T, COMP, false, false>`, vector_operations.hpp:138-180. -/
def selectFlat {T : Type} (cmp : T → T → Bool) (l r : Vec T) (wy wn : Bool) (count : Nat) : Res (Nat × Out) :=
  (l.mask.copy).bind fun c =>
  (combine c r.mask count).bind fun m =>
  (flatLoop (fun i => cmp (l.data i) (r.data i)) m count (entryCount count) 0 0 ⟨[], []⟩).bind (report wy wn count)

/-- The row of the data for row `i`: the indexing of `to_unified_format`, vector.cpp:949-980. -/
def Vec.index {T : Type} (v : Vec T) (i : Nat) : Nat :=
  match v.kind with
  | .constant => 0
  | .flat => i
  | .dictionary => v.sel i

/-- One row of `select_generic_loop`, vector_operations.hpp:194-211. -/
def genericRow {T : Type} (cmp : T → T → Bool) (l r : Vec T) (noNull : Bool) (i : Nat) : Res Bool :=
  if noNull then .ok (cmp (l.data (l.index i)) (r.data (r.index i)))
  else
    (rowIsValid l.mask (l.index i)).bind fun a =>
    if !a then .ok false
    else
      (rowIsValid r.mask (r.index i)).bind fun b =>
      if !b then .ok false else .ok (cmp (l.data (l.index i)) (r.data (r.index i)))

/-- `select_generic_loop`, vector_operations.hpp:183-217, from row `i` with `n` rows left. -/
def genericLoop {T : Type} (cmp : T → T → Bool) (l r : Vec T) (noNull : Bool) : Nat → Nat → Out → Res Out
  | 0, _, o => .ok o
  | n + 1, i, o => (genericRow cmp l r noNull i).bind fun b => genericLoop cmp l r noNull n (i + 1) (o.put i b)

/-- `select_generic`, vector_operations.hpp:262-313. -/
def selectGeneric {T : Type} (cmp : T → T → Bool) (l r : Vec T) (wy wn : Bool) (count : Nat) : Res (Nat × Out) :=
  (genericLoop cmp l r (l.mask.words.isNone && r.mask.words.isNone) count 0 ⟨[], []⟩).bind (report wy wn count)

/-- `select`, vector_operations.hpp:315-333, as `compare` (vector_operations.hpp:366-407) calls it. -/
def select {T : Type} (cmp : T → T → Bool) (l r : Vec T) (wy wn : Bool) (count : Nat) : Res (Nat × Out) :=
  match l.kind, r.kind with
  | .constant, .constant => selectConst cmp l r count
  | .constant, .flat => selectLeft cmp l r wy wn count
  | .flat, .constant => selectRight cmp l r wy wn count
  | .flat, .flat => selectFlat cmp l r wy wn count
  | _, _ => selectGeneric cmp l r wy wn count

end Verif.VecSel
