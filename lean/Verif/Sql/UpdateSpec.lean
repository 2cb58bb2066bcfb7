import Verif.Sql.Spec
import Verif.Sql.UpdateModel
import Verif.Update.Props
/-!
What UPDATE means.
-/
namespace Verif.Sql

open Verif.DocVal Verif.Query Verif.PhysKey

/-- A name that can be written in a path as it is. -/
def Name (k : Bytes) : Prop := k ≠ [] ∧ Json.slash ∉ k ∧ Json.tilde ∉ k

/-- The value of a column of a document. -/
def column (n : Json.Node) (k : Bytes) : Option V :=
  match Json.seen n [.name k] with
  | some (.value .na) => none
  | some (.value v) => some v
  | _ => none

/-- `+`, `-`, `*`, `/`, `%`. -/
def arith : Bytes → Option Update.Bin
  | [43] => some .add
  | [45] => some .sub
  | [42] => some .mult
  | [47] => some .div
  | [37] => some .mod
  | _ => none

/-- An operator on two values: arithmetic of signed integers if the result has 64 bits, comparison of integers,
concatenation (`||`) of texts; others are left open. -/
def evalOp (o : Bytes) : V → V → Option V
  | .int s a, .int t b =>
    if s.signed = true ∧ t.signed = true then
      match arith o with
      | some f => match Update.exact f a b with
        | some r => if ITy.i64.fits r then some (.int .i64 r) else none
        | none => none
      | none =>
        if o = [60] then some (.bool (decide (a < b)))
        else if o = [60, 61] then some (.bool (decide (a ≤ b)))
        else if o = [62] then some (.bool (decide (b < a)))
        else if o = [62, 61] then some (.bool (decide (b ≤ a)))
        else none
    else none
  | .str s, .str t => if o = [124, 124] then some (.str (s ++ t)) else none
  | _, _ => none

/-- The value of an expression for a document; nothing for what is NULL or left open here. -/
def SExpr.value (tbl : Bytes) (n : Json.Node) : SExpr → Option V
  | .lit .null => none
  | .lit l => some l.value
  | .col none k => column n k
  | .col (some t) k => if t = tbl then column n k else none
  | .op o x y => match x.value tbl n, y.value tbl n with
    | some a, some b => evalOp o a b
    | _, _ => none
  | .un o x => match x.value tbl n with
    | some (.int s a) => if o = [45] ∧ s.signed = true ∧ ITy.i64.fits (-a) then some (.int .i64 (-a)) else none
    | _ => none
  | .other => none

/-- The document `n'` is `n` with each assigned column holding the value its expression has for `n`, and everything else
as it was. -/
def Assigned (tbl : Bytes) (sets : List (Bytes × SExpr)) (n n' : Json.Node) : Prop :=
  (∀ p ∈ sets, ∃ v w, p.2.value tbl n = some v ∧ Json.seen n' [.name p.1] = some (.value w) ∧ Update.Same w v) ∧
  ∀ l, (∀ p ∈ sets, ¬ [Json.Key.name p.1] <+: l) → Json.seen n' l = Json.seen n l

/-- The assignments have a meaning for the document: different columns, and values that can be stored. -/
def Assignable (tbl : Bytes) (sets : List (Bytes × SExpr)) (n : Json.Node) : Prop :=
  Json.seen n [] = some .object ∧ (sets.map Prod.fst).Nodup ∧
  ∀ p ∈ sets, Name p.1 ∧ ∃ v, p.2.value tbl n = some v ∧ Update.Sound v

/-- The columns an expression reads. -/
def SExpr.reads : SExpr → List Bytes
  | .col _ k => [k]
  | .op _ x y => x.reads ++ y.reads
  | .un _ x => x.reads
  | _ => []

/-- The constants of an expression. -/
def SExpr.consts : SExpr → Nat
  | .lit _ => 1
  | .op _ x y => x.consts + y.consts
  | .un _ x => x.consts
  | _ => 0

/-- Constants (truth values, texts, integers), columns of the table, and `+`, `-`, `*`, `/`, `%` of two operands. -/
def SExpr.plain (tbl : Bytes) : SExpr → Prop
  | .lit (.num _ _) => False
  | .lit .null => False
  | .lit (.int n) => ITy.i64.fits n
  | .lit _ => True
  | .col t k => (t = none ∨ t = some tbl) ∧ Name k
  | .op o x y => arith o ≠ none ∧ x.plain tbl ∧ y.plain tbl
  | _ => False

/-- No assignment reads a column assigned before it. -/
def Independent : List (Bytes × SExpr) → Prop
  | [] => True
  | (k, _) :: ss => (∀ p ∈ ss, k ∉ p.2.reads) ∧ Independent ss

/-- The columns of the document: integers and numbers within their types, the assigned ones present and of the kind of the new value. -/
def Kindred (tbl : Bytes) (sets : List (Bytes × SExpr)) (n : Json.Node) : Prop :=
  (∀ k s a, column n k = some (.int s a) → s.fits a) ∧
  ∀ p ∈ sets, ∃ v w, p.2.value tbl n = some v ∧ column n p.1 = some w ∧ Update.Kin w v ∧ ∀ b, w = .double b → Num.decode64 b ≠ .nan

/-- The number of constants of the assignments and of the WHERE clause. -/
def constsOf (sets : List (Bytes × SExpr)) (c : Option Cond) : Nat :=
  (sets.map fun p => p.2.consts).sum + match c with
    | none => 0
    | some c => c.consts

/-- The WHERE clause, if there, is true for the document. -/
def Chosen (rx : Bytes → Bytes → Res Bool) (c : Option Cond) (d : Doc) : Prop := ∀ x, c = some x → Selects rx x d

/-- Some assignment changes the value of its column. -/
def Altered (tbl : Bytes) (sets : List (Bytes × SExpr)) (n : Json.Node) : Prop :=
  ∃ p ∈ sets, ∃ v w, p.2.value tbl n = some v ∧ column n p.1 = some w ∧ ¬ Update.Same w v

/-- What an update makes of each document. -/
def Updated (rx : Bytes → Bytes → Res Bool) (tbl : Bytes) (sets : List (Bytes × SExpr)) (c : Option Cond) (d d' : UDoc) : Prop :=
  d'.id = d.id ∧ (Chosen rx c d.doc → Assigned tbl sets d.node d'.node) ∧ (¬ Chosen rx c d.doc → d' = d)

end Verif.Sql
