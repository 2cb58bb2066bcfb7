import Verif.Sql.UpdateModel
/-!
Model of `UPDATE t SET ... FROM s WHERE ...` (components/sql/transformer/impl/transform_update.cpp,
components/physical_plan_generator/impl/create_plan_update.cpp,
components/physical_plan/collection/operators/operator_update.cpp:24-57).

Simplifications: as in `UpdateModel.lean`; `s` is another collection than `t` (with the same, the documents of both sides
are the same objects); no assignment of `_id`; the indexes are left out.
-/
namespace Verif.Sql

open Verif.DocVal Verif.Query

/-- `transform_update_expr`, transform_update.cpp:13-169, with a table after FROM: see `trExpr` for the undefined cases. -/
def trExprFrom (tbl src : Bytes) : SExpr → List V → Res (Update.Expr × List V)
  | .lit .null, _ => .ub
  | .lit l, ps => (getValue (.lit l)).bind fun v => .ok (.param (addParam v ps).1, (addParam v ps).2)
  | .col none k, ps => .ok (.field k .undefined, ps)
  | .col (some t) k, ps => if t = tbl then .ok (.field k .own, ps) else if t = src then .ok (.field k .other, ps) else .throws
  | .op o x y, ps => match kindOf o with
    | none => .ub
    | some (.inl b) => (trExprFrom tbl src x ps).bind fun l => (trExprFrom tbl src y l.2).bind fun r => .ok (.bin b (some l.1) (some r.1), r.2)
    | some (.inr u) => (trExprFrom tbl src x ps).bind fun l => (trExprFrom tbl src y l.2).bind fun r => .ok (.un u (some l.1) (some r.1), r.2)
  | .un _ _, _ => .ub
  | .other, _ => .ub

/-- The loop over the assignments, transform_update.cpp:188-194. -/
def trSetsFrom (tbl src : Bytes) : List (Bytes × SExpr) → List V → Res (List Update.Expr × List V)
  | [], ps => .ok ([], ps)
  | (k, e) :: ss, ps => (trExprFrom tbl src e ps).bind fun l => (trSetsFrom tbl src ss l.2).bind fun r => .ok (.set k (some l.1) :: r.1, r.2)

/-- The loop over the documents of the other collection for one document, operator_update.cpp:40-55: the predicate sees
what the loop has made of the document so far; its `_id` is reported for each partner that changed it. -/
def fromOne (c : Update.Ctx) (p : UDoc → UDoc → Res Bool) : List Update.Expr → UDoc → List UDoc → Res (List Update.Expr × UDoc × List Nat)
  | es, d, [] => .ok (es, d, [])
  | es, d, r :: rs => (p d r).bind fun b =>
    if b then (Update.runAll c (some r.node) es d.node).bind fun x => (fromOne c p x.1 ⟨d.id, x.2.1⟩ rs).bind fun y =>
      .ok (y.1, y.2.1, if x.2.2 then d.id :: y.2.2 else y.2.2)
    else fromOne c p es d rs

/-- The loop over the documents, operator_update.cpp:39-56. -/
def fromAll (c : Update.Ctx) (p : UDoc → UDoc → Res Bool) (other : List UDoc) : List Update.Expr → List UDoc → Res (List UDoc × List Nat)
  | _, [] => .ok ([], [])
  | es, d :: ds => (fromOne c p es d other).bind fun x => (fromAll c p other x.1 ds).bind fun y => .ok (x.2.1 :: y.1, x.2.2 ++ y.2)

/-- `transform_update`, transform_update.cpp:171-213, with FROM, and its plan, create_plan_update.cpp:40-66: two scans of all
documents. -/
def runUpdateFrom (m : Update.Math) (wf : UInt32 → UInt64) (rx : Bytes → Bytes → Res Bool) (tbl src : Bytes) (sets : List (Bytes × SExpr)) (c : Option Cond)
    (store other : List UDoc) : Res (List UDoc × List Nat) :=
  (trSetsFrom tbl src sets []).bind fun s => (trFilter c s.2).bind fun f =>
    (fullScan (-1) (fun _ => .ok true) (store.map UDoc.doc)).bind fun _ => (fullScan (-1) (fun _ => .ok true) (other.map UDoc.doc)).bind fun _ =>
      fromAll ⟨m, wf, paramOf f.2⟩ (fun l r => pred2 ⟨paramOf f.2, rx⟩ f.1 l.doc r.doc) other s.1 store

end Verif.Sql
