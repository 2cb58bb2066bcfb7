import Verif.Sql.Model
import Verif.Update.Model
import Verif.Query.WriteModel
import Verif.Oid.Spec
/-!
Model of the translation of UPDATE and INSERT (components/sql/transformer/impl/transform_update.cpp, transform_insert.cpp)
and of the plan of UPDATE without FROM.

Simplifications: as in `Model.lean`; a document is its `_id` and its tree, of which a WHERE clause sees the fields; the
indexes are left out.
-/
namespace Verif.Sql

open Verif.DocVal Verif.Query

/-- The right side of an assignment: a constant, a column, an operator of two operands, of one operand (the other is
null), anything else (a function, CASE, a subquery). -/
inductive SExpr where
  | lit (l : Lit)
  | col (table : Option Bytes) (name : Bytes)
  | op (name : Bytes) (x y : SExpr)
  | un (name : Bytes) (x : SExpr)
  | other

/-- The switch over the first characters of the operator, transform_update.cpp:60-115; nothing for others (then `res` is
null). -/
def kindOf : Bytes → Option (Update.Bin ⊕ Update.Un)
  | 43 :: _ => some (.inl .add)
  | 45 :: _ => some (.inl .sub)
  | 42 :: _ => some (.inl .mult)
  | 47 :: _ => some (.inl .div)
  | 37 :: _ => some (.inl .mod)
  | 94 :: _ => some (.inl .exp)
  | 33 :: _ => some (.inr .fact)
  | 64 :: _ => some (.inr .abs)
  | 60 :: _ => some (.inl .shl)
  | 62 :: _ => some (.inl .shr)
  | 126 :: _ => some (.inr .not)
  | 38 :: _ => some (.inl .and)
  | 35 :: _ => some (.inl .xor)
  | 124 :: 47 :: _ => some (.inr .sqrt)
  | 124 :: 124 :: _ => some (.inr .cbrt)
  | 124 :: _ => some (.inl .or)
  | _ => none

/-- `transform_update_expr`, transform_update.cpp:13-169, without FROM.  A NULL leaves the number of the parameter
uninitialised (44-46); an unknown operator is called through null; of an operator of one operand the missing one is read
through null; another node falls off the end of the function. -/
def trExpr (tbl : Bytes) : SExpr → List V → Res (Update.Expr × List V)
  | .lit .null, _ => .ub
  | .lit l, ps => (getValue (.lit l)).bind fun v => .ok (.param (addParam v ps).1, (addParam v ps).2)
  | .col none k, ps => .ok (.field k .undefined, ps)
  | .col (some t) k, ps => if t = tbl then .ok (.field k .own, ps) else .throws
  | .op o x y, ps => match kindOf o with
    | none => .ub
    | some (.inl b) => (trExpr tbl x ps).bind fun l => (trExpr tbl y l.2).bind fun r => .ok (.bin b (some l.1) (some r.1), r.2)
    | some (.inr u) => (trExpr tbl x ps).bind fun l => (trExpr tbl y l.2).bind fun r => .ok (.un u (some l.1) (some r.1), r.2)
  | .un _ _, _ => .ub
  | .other, _ => .ub

/-- The loop over the assignments, transform_update.cpp:188-194. -/
def trSets (tbl : Bytes) : List (Bytes × SExpr) → List V → Res (List Update.Expr × List V)
  | [], ps => .ok ([], ps)
  | (k, e) :: ss, ps => (trExpr tbl e ps).bind fun l => (trSets tbl ss l.2).bind fun r => .ok (.set k (some l.1) :: r.1, r.2)

/-- A stored document: its `_id` and its tree. -/
structure UDoc where
  id : Nat
  node : Json.Node

/-- A field as a condition sees it. -/
def cellOf : Json.Node → Cell
  | .leaf v => .scalar v
  | _ => .container

/-- The fields of a document. -/
def fieldsIn : Json.Node → List (Bytes × Cell)
  | .obj fs => fs.map fun p => (p.1, cellOf p.2)
  | _ => []

/-- The document as a condition sees it. -/
def UDoc.doc (d : UDoc) : Doc := ⟨d.id, fieldsIn d.node⟩

/-- The documents that were updated, in place among the others. -/
def place (p : UDoc → Bool) : List UDoc → List (Json.Node × Bool) → List UDoc
  | d :: ds, r :: rs => if p d then ⟨d.id, r.1⟩ :: place p ds rs else d :: place p ds (r :: rs)
  | ds, _ => ds

/-- The WHERE clause, transform_update.cpp:196-206. -/
def trFilter : Option Cond → List V → Res (Filter Leaf × List V)
  | none, ps => .ok (.leaf .allTrue, ps)
  | some c, ps => tr c ps

/-- The operator on the documents the scan found, operator_update.cpp:60-85: all documents afterwards and those reported as
modified. -/
def updateDocs (c : Update.Ctx) (es : List Update.Expr) (p : UDoc → Bool) (store : List UDoc) : Res (List UDoc × List Nat) :=
  (Update.runDocs c es ((store.filter p).map UDoc.node)).bind fun rs =>
    .ok (place p store rs, (((store.filter p).zip rs).filter fun (x : UDoc × (Json.Node × Bool)) => x.2.2).map fun x => x.1.id)

/-- `transform_update`, transform_update.cpp:171-213, without FROM, and its plan, create_plan_update.cpp:30-39. -/
def runUpdate (m : Update.Math) (wf : UInt32 → UInt64) (rx : Bytes → Bytes → Res Bool) (tbl : Bytes) (sets : List (Bytes × SExpr)) (c : Option Cond)
    (store : List UDoc) : Res (List UDoc × List Nat) :=
  (trSets tbl sets []).bind fun s => (trFilter c s.2).bind fun f =>
    (fullScan (-1) (pred ⟨paramOf f.2, rx⟩ f.1) (store.map UDoc.doc)).bind fun out =>
      match out with
      | none => .ok (store, [])
      | some ds => updateDocs ⟨m, wf, paramOf f.2⟩ s.1 (fun d => ds.any fun e => e.id == d.id) store

/-! ### INSERT -/

/-- The document of one row of `INSERT INTO t (cols) VALUES rows`, transform_insert.cpp:27-34: the values under the names of
the columns, each put on a tape and from there into the document; more values than columns read past the end of the
columns. -/
def trRow : List Bytes → List Operand → Json.Node → Res Json.Node
  | _, [], n => .ok n
  | [], _ :: _, _ => .ub
  | k :: ks, x :: xs, n => (getValue x).bind fun v => (put v).bind fun w => (Json.setAt n k (.leaf w)).bind fun r => trRow ks xs r.1

/-- `/_id`. -/
def idPath : Bytes := [47, 95, 105, 100]

/-- `get_document_id`, document.cpp:1009, with `get_string`, document.cpp:143-145; the bytes of the identifier as a number
(they are compared as such, `C60_order`). -/
def docId (n : Json.Node) : Res Nat := (Update.getAs [] V.getStr n idPath).bind fun s => .ok (Oid.value (Oid.init s))

/-- All rows, transform_insert.cpp:21-36. -/
def trRows (cols : List Bytes) : List (List Operand) → Res (List UDoc)
  | [] => .ok []
  | r :: rs => (trRow cols r (.obj [])).bind fun n => (docId n).bind fun i => (trRows cols rs).bind fun ds => .ok (⟨i, n⟩ :: ds)

/-- `transform_insert` of VALUES, transform_insert.cpp:11-41, and its plan, create_plan_insert.cpp:13-28. -/
def runInsert (cols : List Bytes) (rows : List (List Operand)) (store : List Doc) : Res (List Doc × Option (List Nat)) :=
  (trRows cols rows).bind fun ds => .ok (insertOp (cols.zip cols) store (ds.map UDoc.doc))

end Verif.Sql
