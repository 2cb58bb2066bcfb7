import Verif.Sql.Model
import Verif.Query.Spec
import Verif.Query.AggSpec
import Verif.DocVal.Props
/-!
What SQL says a condition means.  A comparison with a column that is missing or NULL is neither true nor false.
-/
namespace Verif.Sql

open Verif.DocVal Verif.Query Verif.Num Verif.PhysKey

/-- The value of a constant. -/
def Lit.value : Lit → V
  | .bool b => .bool b
  | .str s => .str s
  | .int n => .int .i64 n
  | .num d _ => .double d
  | .null => .na

/-- A value that is not NULL. -/
def known : Cell → Option V
  | .scalar .na => none
  | .scalar v => some v
  | _ => none

/-- The value of an operand; `row` gives the columns. -/
def Operand.value (row : Option Bytes → Bytes → Cell) (d : Doc) : Operand → Option V
  | .col t k => known (row t k)
  | .lit l => known (.scalar l.value)
  | .expr f => known (f d)

/-- What a comparison accepts, by whether the first is less and whether it is greater. -/
def Cmp.accepts (c : Cmp) (less more : Bool) : Bool :=
  match c with
  | .eq => !less && !more
  | .ne => less || more
  | .gt => more
  | .gte => !less
  | .lt => less
  | .lte => !more

/-- The number a value stands for. -/
def number : V → Option FVal
  | .int _ a => some (.fin (a * one))
  | .big a => some (.fin (a * one))
  | .float a => some (decode32 a)
  | .double a => some (decode64 a)
  | _ => none

/-- The order of two numbers (whatever their type), two texts, two truth values. -/
def less : V → V → Option Bool
  | .str a, .str b => some (PhysKey.bytesLt a b)
  | .bool a, .bool b => some (!a && b)
  | a, b => match number a, number b with
    | some x, some y => some (FVal.lt x y)
    | _, _ => none

/-- LIKE: `%` (37) stands for any text, `_` (95) for any character. -/
def likeMatch : Bytes → Bytes → Bool
  | [], t => t == []
  | 37 :: p, [] => likeMatch p []
  | 37 :: p, c :: t => likeMatch p (c :: t) || likeMatch (37 :: p) t
  | _ :: _, [] => false
  | q :: p, c :: t => (q == 95 || q == c) && likeMatch p t
termination_by p t => p.length + t.length

/-- An operator on two values; nothing if one is NULL or they cannot be compared. -/
def Op.apply (rx : Bytes → Bytes → Res Bool) (o : Op) (x y : Option V) : Option Bool :=
  match o, x, y with
  | .cmp c, some a, some b =>
    match less a b, less b a with
    | some l, some m => some (Cmp.accepts c l m)
    | _, _ => none
  | .regexp, some (.str s), some (.str p) => match rx s p with | .ok b => some b | _ => none
  | .like, some (.str s), some (.str p) => some (likeMatch p s)
  | _, _, _ => none

/-- AND of three truth values. -/
def and3 : Option Bool → Option Bool → Option Bool
  | some false, _ => some false
  | _, some false => some false
  | some true, some true => some true
  | _, _ => none

/-- OR of three truth values. -/
def or3 : Option Bool → Option Bool → Option Bool
  | some true, _ => some true
  | _, some true => some true
  | some false, some false => some false
  | _, _ => none

/-- The truth value of a condition; nothing (unknown) for what is left open here. -/
def Cond.truth (rx : Bytes → Bytes → Res Bool) (row : Option Bytes → Bytes → Cell) (d : Doc) : Cond → Option Bool
  | .op o x y => o.apply rx (x.value row d) (y.value row d)
  | .and l r => and3 (l.truth rx row d) (r.truth rx row d)
  | .or l r => or3 (l.truth rx row d) (r.truth rx row d)
  | .not c => (c.truth rx row d).map (!·)
  | _ => none

/-- Values the engine compares as SQL does: of one kind (C32). -/
def Akin (a b : V) : Prop := ∃ k : Kind, k.has a ∧ k.has b

/-- A number of a column and a numeral that `float` holds exactly, both comparable. -/
def NumAkin (a : V) (d : UInt64) (f : UInt32) : Prop :=
  decode32 f = decode64 d ∧ tame (decode64 d) ∧ ((∃ x, a = .double x ∧ tame (decode64 x)) ∨ ∃ x, a = .float x ∧ tame (decode32 x))

/-- A comparison of a column whose value is `a` with the other side. -/
def Comparable (row : Option Bytes → Bytes → Cell) (a : V) : Operand → Prop
  | .lit (.num d f) => NumAkin a d f
  | .lit l => Akin a l.value
  | .col t k => ∃ b, known (row t k) = some b ∧ Akin a b
  | .expr _ => False

/-- The comparisons of the condition are of a column with a column or constant, in this order for `<`, `<=`, `>`, `>=`, in
any order for `=` and `<>`, or a regular expression for a column; no NOT is directly below a NOT. -/
def Cond.plain : Cond → Prop
  | .op (.cmp _) (.col _ _) (.lit l) => l ≠ .null
  | .op (.cmp _) (.col _ _) (.col _ _) => True
  | .op (.cmp c) (.lit l) (.col _ _) => l ≠ .null ∧ (c = .eq ∨ c = .ne)
  | .op .regexp (.col _ _) (.lit (.str _)) => True
  | .and l r => l.plain ∧ r.plain
  | .or l r => l.plain ∧ r.plain
  | .not (.not _) => False
  | .not c => c.plain
  | _ => False

/-- In the row, the columns of the condition are not NULL and comparable with the other side. -/
def Cond.ready (rx : Bytes → Bytes → Res Bool) (row : Option Bytes → Bytes → Cell) : Cond → Prop
  | .op .regexp (.col t k) (.lit (.str p)) => ∃ s, row t k = .scalar (.str s) ∧ ∃ b, rx s p = .ok b
  | .op (.cmp _) (.col t k) y => ∃ a, known (row t k) = some a ∧ Comparable row a y
  | .op (.cmp _) x (.col t k) => ∃ a, known (row t k) = some a ∧ Comparable row a x
  | .and l r => l.ready rx row ∧ r.ready rx row
  | .or l r => l.ready rx row ∧ r.ready rx row
  | .not c => c.ready rx row
  | _ => False

/-- The number of constants of a condition. -/
def Cond.consts : Cond → Nat
  | .op _ (.col _ _) (.col _ _) => 0
  | .op _ _ _ => 1
  | .and l r => l.consts + r.consts
  | .or l r => l.consts + r.consts
  | .not c => c.consts
  | _ => 0

/-- The condition has no NOT and its comparisons are `=`, `<`, `<=` of a column with a constant. -/
def Cond.positive : Cond → Prop
  | .op (.cmp c) (.col _ _) (.lit l) => l ≠ .null ∧ (c = .eq ∨ c = .lt ∨ c = .lte)
  | .and l r => l.positive ∧ r.positive
  | .or l r => l.positive ∧ r.positive
  | _ => False

/-- In the row, each column of the condition is missing, NULL or comparable with the constant. -/
def Cond.lax (row : Option Bytes → Bytes → Cell) : Cond → Prop
  | .op (.cmp _) (.col t k) y => (row t k = .missing ∨ row t k = .scalar .na ∨ ∃ a, known (row t k) = some a ∧ Comparable row a y) ∧
      ∃ a, Comparable row a y
  | .and l r => l.lax row ∧ r.lax row
  | .or l r => l.lax row ∧ r.lax row
  | _ => False

/-- The condition is made of comparisons of columns, constants and expressions. -/
def Cond.logical : Cond → Prop
  | .op o _ _ => o ≠ .other
  | .and l r => l.logical ∧ r.logical
  | .or l r => l.logical ∧ r.logical
  | .not c => c.logical
  | _ => False

/-- The columns of a document: the table does not matter. -/
def fieldsOf (d : Doc) : Option Bytes → Bytes → Cell := fun _ k => d.get k

/-- The document satisfies the condition. -/
def Selects (rx : Bytes → Bytes → Res Bool) (c : Cond) (d : Doc) : Prop := c.truth rx (fieldsOf d) d = some true

instance (rx : Bytes → Bytes → Res Bool) (c : Cond) (d : Doc) : Decidable (Selects rx c d) := by unfold Selects; exact inferInstance

/-- `SELECT * FROM t WHERE c`. -/
def allWhere (c : Cond) : Select := ⟨[.star], some c, [], [], none⟩

/-- A list of columns of a SELECT: each with its label and its name. -/
def columns (cols : List (Bytes × Bytes)) : List Target := cols.map fun p => .col none p.2 (some p.1)

/-- Two cells show the same: both nothing or NULL, or the same value. -/
def Same (a b : Cell) : Prop := (known a = none ∧ known b = none) ∨ ∃ v w, known a = some v ∧ known b = some w ∧ SameValue v w = true

/-- A row shows the columns of a document. -/
def Shows (cols : List (Bytes × Bytes)) (d row : Doc) : Prop := ∀ p ∈ cols, Same (d.get p.2) (row.get p.1)

/-- The documents a WHERE clause, or none, selects. -/
def selected (rx : Bytes → Bytes → Res Bool) (store : List Doc) : Option Cond → List Doc
  | none => store
  | some c => store.filter fun d => decide (Selects rx c d)

/-- The WHERE clause is one of those C54 is proved for. -/
def Clear (rx : Bytes → Bytes → Res Bool) (store : List Doc) : Option Cond → Prop
  | none => True
  | some c => c.consts ≤ 2 ^ 16 ∧ ((c.plain ∧ ∀ d ∈ store, c.ready rx (fieldsOf d)) ∨ (c.positive ∧ ∀ d ∈ store, c.lax (fieldsOf d)))

/-- A list of functions of columns: label, function, column. -/
def calls (as : List (Bytes × Fn × Bytes)) : List Target := as.map fun a => .call a.2.1 none a.2.2 a.1

/-- What the cell of a function shows for the documents of a group: their number, the sum of a column of 64-bit integers
that nowhere overflows, the least and the greatest value of a column of one kind.  Nothing is said of averages here. -/
def Means (m : List Doc) (a : Bytes × Fn × Bytes) (c : Cell) : Prop :=
  match a.2.1 with
  | .count => c = .scalar (.int .u64 m.length)
  | .sum => ∀ ns : List Int, m.map (fun d => d.value a.2.2) = ns.map (fun n => some (.int .i64 n)) → (∀ n ∈ ns, ITy.i64.fits n) →
      (∀ i, ITy.i64.fits (ns.take i).sum) → c = .scalar (.int .i64 ns.sum)
  | .min => ∀ k : Kind, (∀ d ∈ m, ∃ v, d.get a.2.2 = .scalar v ∧ k.has v) → ∃ v, c = .scalar v ∧ IsLeast k (valuesOf a.2.2 m) v
  | .max => ∀ k : Kind, (∀ d ∈ m, ∃ v, d.get a.2.2 = .scalar v ∧ k.has v) → ∃ v, c = .scalar v ∧ IsGreatest k (valuesOf a.2.2 m) v
  | _ => True

/-! ### joins -/

/-- The columns of a pair: those of the table `tl` are the left row's, the others the right row's. -/
def pairOf (tl : Bytes) (l r : Row) : Option Bytes → Bytes → Cell := fun t k => if t = some tl then look l k else look r k

/-- The pair satisfies the condition. -/
def Joins (rx : Bytes → Bytes → Res Bool) (tl : Bytes) (c : Cond) (l r : Row) : Prop := c.truth rx (pairOf tl l r) (asDoc l) = some true

instance (rx : Bytes → Bytes → Res Bool) (tl : Bytes) (c : Cond) (l r : Row) : Decidable (Joins rx tl c l r) := by unfold Joins; exact inferInstance

/-- The comparisons are of a column of the left table, on the left, with one of the right table or with a constant; no
NOT is directly below a NOT. -/
def Cond.sided (tl tr : Bytes) : Cond → Prop
  | .op (.cmp _) (.col t _) (.lit l) => t = some tl ∧ l ≠ .null
  | .op (.cmp _) (.col t _) (.col t' _) => t = some tl ∧ t' = some tr
  | .and l r => l.sided tl tr ∧ r.sided tl tr
  | .or l r => l.sided tl tr ∧ r.sided tl tr
  | .not (.not _) => False
  | .not c => c.sided tl tr
  | _ => False

end Verif.Sql
