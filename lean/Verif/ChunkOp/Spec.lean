import Verif.ChunkOp.Model
/-!
What conditions mean on a row, and what filters, joins and sorts have to return.
-/
namespace Verif.ChunkOp
open Verif Verif.Num Verif.PhysKey Verif.LogVal
open Verif.DocVal (V)

/-- A value of a type. -/
def Ty.has : Ty → LV → Prop
  | .bool, .bool _ => True
  | .int t, .int u v => t = u ∧ t.fits v
  | .float, .float _ => True
  | .double, .double _ => True
  | .str, .str _ => True
  | _, _ => False

/-- A row of a table with these columns: in every column NULL or a value of its type. -/
inductive Typed : Cols → Row → Prop where
  | nil : Typed [] []
  | cons {n ty cs c r} : (∀ v, c = some v → ty.has v) → Typed cs r → Typed ((n, ty) :: cs) (c :: r)

/-- No cell of the row is NULL. -/
def Full (r : Row) : Prop := ∀ c ∈ r, c ≠ none

/-- A row with the zero of the column (0, false, the empty string) in place of each NULL. -/
def fill : Cols → Row → Row
  | (_, ty) :: cs, c :: r => some (c.getD ty.zero) :: fill cs r
  | _, _ => []

/-- The cell under a name. -/
def cell : Cols → Row → Bytes → Option Cell
  | (n, _) :: cs, c :: r, k => if n = k then some c else cell cs r k
  | _, _, _ => none

/-- The type of the column of a name. -/
def tyOf : Cols → Bytes → Option Ty
  | [], _ => none
  | (n, ty) :: cs, k => if n = k then some ty else tyOf cs k

/-- What a value stands for: a truth value, a number or a text. -/
inductive Sc where
  | b (x : Bool)
  | n (x : FVal)
  | s (x : Bytes)
deriving DecidableEq

/-- The meaning of a stored value. -/
def meaning : LV → Option Sc
  | .bool b => some (.b b)
  | .int _ v => some (.n (.fin (v * one)))
  | .float f => some (.n f)
  | .double f => some (.n f)
  | .str s => some (.s s)
  | _ => none

/-- The meaning of a parameter. -/
def pmeaning : V → Option Sc
  | .bool b => some (.b b)
  | .int _ v => some (.n (.fin (v * one)))
  | .big v => some (.n (.fin (v * one)))
  | .float b => some (.n (decode32 b))
  | .double b => some (.n (decode64 b))
  | .str s => some (.s s)
  | _ => none

/-- The order of the values of a kind; false before true; NaN is not comparable. -/
def before : Sc → Sc → Bool
  | .b x, .b y => !x && y
  | .n x, .n y => FVal.lt x y
  | .s x, .s y => bytesLt x y
  | _, _ => false

/-- Equality of values; NaN is not equal to itself. -/
def same : Sc → Sc → Bool
  | .n .nan, _ => false
  | x, y => decide (x = y)

/-- What a comparison says of two values. -/
def Op.says (op : Op) (x y : Sc) : Bool :=
  match op with
  | .eq => same x y
  | .ne => !same x y
  | .lt => before x y
  | .gt => before y x
  | .lte => before x y || same x y
  | .gte => before y x || same x y

/-- The operands of a comparison: what the columns and parameters hold, `none` for NULL. -/
structure Names where
  left : Bytes → Option Sc
  right : Rhs → Option Sc

mutual
/-- A condition in SQL: true, false or unknown. -/
def truth (m : Names) : Ex → Option Bool
  | .always => some true
  | .cmp op l r => (m.left l).bind fun x => (m.right r).map fun y => op.says x y
  | .and l => truthAll m l
  | .or l => truthAny m l
  | .not e => (truth m e).map (!·)
  | .allTrue => some true
  | .allFalse => some false
  | .member => none
  | .other => none
/-- All of them. -/
def truthAll (m : Names) : List Ex → Option Bool
  | [] => some true
  | e :: es =>
    match truth m e, truthAll m es with
    | some false, _ => some false
    | _, some false => some false
    | some true, some true => some true
    | _, _ => none
/-- Any of them. -/
def truthAny (m : Names) : List Ex → Option Bool
  | [] => some false
  | e :: es =>
    match truth m e, truthAny m es with
    | some true, _ => some true
    | _, some true => some true
    | some false, some false => some false
    | _, _ => none
end

/-- What a row has under a name. -/
def holds (cs : Cols) (r : Row) (k : Bytes) : Option Sc := ((cell cs r k).bind id).bind meaning

/-- The operands of a condition on one row. -/
def oneRow (ps : List V) (cs : Cols) (r : Row) : Names :=
  { left := holds cs r
    right := fun x => match x with
      | .param n => ps[n]?.bind pmeaning
      | .key k => holds cs r k }

/-- The operands of a condition on a pair of rows. -/
def twoRows (ps : List V) (cl cr : Cols) (l r : Row) : Names :=
  { left := holds cl l
    right := fun x => match x with
      | .param n => ps[n]?.bind pmeaning
      | .key k => holds cr r k }

/-- The condition is true of a row. -/
def selects (ps : List V) (e : Ex) (cs : Cols) (r : Row) : Bool := truth (oneRow ps cs r) e == some true

/-- The condition is true of a pair. -/
def pairs (ps : List V) (e : Ex) (cl cr : Cols) (l r : Row) : Bool := truth (twoRows ps cl cr l r) e == some true

/-- At most `limit` of them, -1 for all. -/
def firstN {α : Type} (limit : Int) (l : List α) : List α := if limit = -1 then l else l.take limit.toNat

/-- A call answers with these rows; no output stands for none. -/
def Answers (r : Res (Option (List Row))) (rows : List Row) : Prop := r = .ok (some rows) ∨ (rows = [] ∧ r = .ok none)

mutual
/-- A leaf property of all comparisons of a condition made of comparisons, AND, OR, NOT and the constants. -/
def Ex.All (P : Op → Bytes → Rhs → Prop) : Ex → Prop
  | .always => True
  | .cmp op l r => P op l r
  | .and l => Ex.AllL P l
  | .or l => Ex.AllL P l
  | .not e => Ex.All P e
  | .allTrue => True
  | .allFalse => True
  | .member => False
  | .other => False
def Ex.AllL (P : Op → Bytes → Rhs → Prop) : List Ex → Prop
  | [] => True
  | e :: es => Ex.All P e ∧ Ex.AllL P es
end

/-- A parameter can be compared with a column: both are truth values, numbers or texts. -/
def Alike : Ty → V → Prop
  | .bool, .bool _ => True
  | .int _, .int s v => s.fits v
  | .int _, .float _ => True
  | .int _, .double _ => True
  | .float, .int s v => s.fits v
  | .float, .float _ => True
  | .float, .double _ => True
  | .double, .int s v => s.fits v
  | .double, .float _ => True
  | .double, .double _ => True
  | .str, .str _ => True
  | _, _ => False

/-- The comparisons of a condition on one row make sense: the columns exist, and what they are compared with is a
parameter of a like kind or a column of the same type. -/
def SoundOne (ps : List V) (cs : Cols) (_ : Op) (l : Bytes) (r : Rhs) : Prop :=
  ∃ ty, tyOf cs l = some ty ∧
    match r with
    | .param n => ∃ v, ps[n]? = some v ∧ Alike ty v
    | .key k => tyOf cs k = some ty

mutual
/-- The condition `all_true` does not occur. -/
def Ex.Plain : Ex → Prop
  | .and l => Ex.PlainL l
  | .or l => Ex.PlainL l
  | .not e => Ex.Plain e
  | .allTrue => False
  | _ => True
def Ex.PlainL : List Ex → Prop
  | [] => True
  | e :: es => Ex.Plain e ∧ Ex.PlainL es
end

/-- The narrower case: an integer with a column of integers, below 2^63 if they are signed and not negative if they are
unsigned; a `float` with one of `float`; a floating point number or an integer up to 2^53 with one of `double`. -/
def Suits : Ty → V → Prop
  | .bool, .bool _ => True
  | .int t, .int s v => s.fits v ∧ if t.signed then v < 2 ^ 63 else 0 ≤ v
  | .float, .float _ => True
  | .double, .int _ v => v.natAbs ≤ 2 ^ 53
  | .double, .float _ => True
  | .double, .double _ => True
  | .str, .str _ => True
  | _, _ => False

/-- The comparisons are of a column with a parameter that suits it. -/
def SuitOne (ps : List V) (cs : Cols) (_ : Op) (l : Bytes) (r : Rhs) : Prop :=
  ∃ ty n v, tyOf cs l = some ty ∧ r = .param n ∧ ps[n]? = some v ∧ Suits ty v

/-! ### joins -/

/-- The comparisons of a join make sense: the left column exists, and what it is compared with is a parameter of a like
kind or a column of the right side of the same type. -/
def SoundTwo (ps : List V) (cl cr : Cols) (_ : Op) (l : Bytes) (r : Rhs) : Prop :=
  ∃ ty, tyOf cl l = some ty ∧
    match r with
    | .param n => ∃ v, ps[n]? = some v ∧ Alike ty v
    | .key k => tyOf cr k = some ty

/-- The narrower case: a parameter has exactly the type of the column. -/
def SuitTwo (ps : List V) (cl cr : Cols) (_ : Op) (l : Bytes) (r : Rhs) : Prop :=
  ∃ ty, tyOf cl l = some ty ∧
    match r with
    | .param n => ∃ v, ps[n]? = some v ∧ ty.has (Query.logical v)
    | .key k => tyOf cr k = some ty

/-- The columns of a join: those of the left side, then those of the right side with other names. -/
def joinedCols (l r : Cols) : Cols := l ++ r.filter fun c => !(l.map Prod.fst).contains c.1

/-- Two sides can be joined: no name twice on a side, columns of the same name have the same type. -/
structure Joinable (l r : Cols) : Prop where
  left : (l.map Prod.fst).Nodup
  right : (r.map Prod.fst).Nodup
  types : ∀ k ty, tyOf l k = some ty → ∀ ty', tyOf r k = some ty' → ty = ty'

/-- What a row of the result has under a name: the cell of the right row if it is there and has the column, else that of
the left row, else NULL. -/
def sideCell (cl cr : Cols) (x : Option Row × Option Row) (k : Bytes) : Cell :=
  match x.2.bind fun r => cell cr r k with
  | some c => c
  | none => match x.1.bind fun l => cell cl l k with
    | some c => c
    | none => none

/-- A row of the result: a cell for every column. -/
def besides (cl cr : Cols) (x : Option Row × Option Row) : Row := (joinedCols cl cr).map fun c => sideCell cl cr x c.1

/-- The rows of a join as pairs: those the condition is true of, and for outer joins the rows without partner. -/
def expected (t : Query.JoinType) (q : Row → Row → Bool) (ls rs : List Row) : List (Option Row × Option Row) :=
  let both := ls.flatMap fun l => (rs.filter (q l)).map fun r => (some l, some r)
  let lonelyL := (ls.filter fun l => !rs.any (q l)).map fun l => (some l, none)
  let lonelyR := (rs.filter fun r => !ls.any fun l => q l r).map fun r => (none, some r)
  match t with
  | .inner => both
  | .left => both ++ lonelyL
  | .right => both ++ lonelyR
  | .full => both ++ lonelyL ++ lonelyR
  | .cross => ls.flatMap fun l => rs.map fun r => (some l, some r)

end Verif.ChunkOp
