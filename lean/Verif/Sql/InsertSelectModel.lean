import Verif.Sql.UpdateModel
/-!
Model of `INSERT INTO t (cols) SELECT ...` (components/sql/transformer/impl/transform_insert.cpp, its plan
components/physical_plan_generator/impl/create_plan_insert.cpp, components/physical_plan/collection/operators/operator_insert.cpp).

Simplifications: as in `Model.lean` and `UpdateModel.lean`; names are top level names; documents are values (that those of
`SELECT *` are shared is in `Share`).
-/
namespace Verif.Sql

open Verif.DocVal Verif.Query

/-- `_id`. -/
def idName : Bytes := [95, 105, 100]

/-- The names of the scalar expressions of the group node, transform_insert.cpp:49-54: those of functions are not among
them. -/
def outNames : List GExpr → List Bytes
  | [] => []
  | .key n _ :: es => n :: outNames es
  | .const n :: es => n :: outNames es
  | .agg _ _ :: es => outNames es
  | .invalid _ :: es => outNames es

/-- The key translation, transform_insert.cpp:12-17, 43-66: each column with itself; if the SELECT has a list of
expressions, with their names, of which there have to be as many. -/
def insertNames (cols : List Bytes) (g : List GExpr) : Res (List (Bytes × Bytes)) :=
  match g with
  | [] => .ok (cols.zip cols)
  | _ :: _ => if cols.length = (outNames g).length then .ok (cols.zip (outNames g)) else .throws

/-- `get_document_id` of a row, document.cpp:1009: the identifier in the text of its `_id`, of no text if there is
none. -/
def rowIdent (fs : List (Bytes × Cell)) : Nat :=
  match look fs idName with
  | .scalar (.str s) => Oid.value (Oid.init s)
  | _ => Oid.value (Oid.init [])

/-- The rows with their identifiers: stored documents have theirs, rows of a group are new documents. -/
def withIds (g : List GExpr) (rows : List Doc) : List Doc :=
  match g with
  | [] => rows
  | _ :: _ => rows.map fun d => ⟨rowIdent d.fields, d.fields⟩

/-- `to_string` of an identifier, oid.hpp:205-213. -/
def identText (i : Nat) : Bytes := Oid.text (Oid.low Oid.size i)

/-- The document stored for a row, operator_insert.cpp:25-37: the row, or if names are translated a new document with its
identifier as `_id` and then copies of the values. -/
def storedRow (tr : List (Bytes × Bytes)) (d : Doc) : Doc :=
  if simpleInsert tr then d else ⟨d.id, copyAll d tr [(idName, .scalar (.str (identText d.id)))]⟩

/-- `transform_insert` of a SELECT, transform_insert.cpp:42-69, and its plan, create_plan_insert.cpp:13-28: the outcomes, a
SELECT with ORDER BY may have several.  The stored documents are made before the check of the `_id`s instead of after; the
check looks at `_id`s only, which they keep. -/
def runInsertSelect (fpu : Fpu) (rx : Bytes → Bytes → Res Bool) (cols : List Bytes) (s : Select) (src store : List Doc)
    (r : Res (List Doc × Option (List Nat))) : Prop :=
  ∃ q, runSelect fpu rx src s q ∧
    r = (trSelect s).bind fun p => (insertNames cols p.group).bind fun tr => q.bind fun rows =>
      .ok (insertOp [] store ((withIds p.group rows).map (storedRow tr)))

end Verif.Sql
