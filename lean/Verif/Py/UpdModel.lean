import Verif.Py.FindModel
import Verif.Sql.UpdateModel
/-!
Model of updates through the Python interface (integration/python/sql/wrapper_collection.cpp:105-207), with the operator
they reach (components/physical_plan/collection/operators/operator_update.cpp:60-85).

Simplifications: as in `Verif.Py.FindModel` and `Verif.Sql.UpdateModel`.  The order in which the fields of an object are
visited, that of a hash map, is a parameter.
-/
namespace Verif.Py

open Verif.DocVal

/-- `$set`, `$inc`. -/
def kSet : Bytes := [36, 115, 101, 116]
def kInc : Bytes := [36, 105, 110, 99]

/-- The field of an object with a name: `find_node`, document.cpp:385-413 (the name has no `/` and no `~`). -/
def fieldOf (d : Tape) (k : Bytes) : List (Nat × Trie) → Res (Option Trie)
  | [] => .ok none
  | (i, t) :: fs => (keyText d i).bind fun s => if s = k then .ok (some t) else fieldOf d k fs

/-- `*value->get_mut()`, wrapper_collection.cpp:117: null for an object or an array (json_trie_node.cpp:94-99). -/
def leafV (d : Tape) : Trie → Res V
  | .el i => read d i
  | _ => .ub

/-- An assignment of `$set`, wrapper_collection.cpp:115-118. -/
def setE (k : Bytes) (id : Nat) : Update.Expr := .set k (some (.param id))

/-- An assignment of `$inc`, wrapper_collection.cpp:123-134: the field of the document plus the number. -/
def incE (k : Bytes) (id : Nat) : Update.Expr := .set k (some (.bin .add (some (.field k .own)) (some (.param id))))

/-- The loops over `$set` and `$inc`, wrapper_collection.cpp:114-119, 122-135: `add_parameter`, then the assignment. -/
def assignments (mk : Bytes → Nat → Update.Expr) (d : Tape) : List (Nat × Trie) → Store → Res (List Update.Expr × Store)
  | [], st => .ok ([], st)
  | (k, t) :: fs, st => (keyText d k).bind fun key => (leafV d t).bind fun v =>
    (assignments mk d fs (st.add (some v)).2).bind fun r => .ok (mk key (st.add (some v)).1 :: r.1, r.2)

/-- One of the two: nothing if it is not there; `get_dict` gives null for what is no object (document.cpp:156-163). -/
def part (ord : List (Nat × Trie) → List (Nat × Trie)) (mk : Bytes → Nat → Update.Expr) (name : Bytes) (d : Tape)
    (fs : List (Nat × Trie)) (st : Store) : Res (List Update.Expr × Store) :=
  (fieldOf d name fs).bind fun
    | none => .ok ([], st)
    | some (.obj gs) => assignments mk d (ord gs) st
    | some _ => .ub

/-- The assignments of an update, wrapper_collection.cpp:111-136 and 163-188; other keys are not looked at. -/
def parseUpdate (rtl : Bool) (L : Lib) (ord : List (Nat × Trie) → List (Nat × Trie)) (fields : List (Scalar × PyObj)) (st : Store) :
    Res (List Update.Expr × Store) :=
  (toDocument rtl L fields).bind fun r =>
  (part ord setE kSet r.2 r.1 st).bind fun a =>
  (part ord incE kInc r.2 r.1 a.2).bind fun b => .ok (a.1 ++ b.1, b.2)

/-- The value of a parameter. -/
def paramsOf (st : Store) (id : Nat) : Option V := (find? id st.vals).join

/-- `insert_or_assign`. -/
def insertOrAssign (d : Sql.UDoc) : List Sql.UDoc → List Sql.UDoc
  | [] => [d]
  | e :: ds => if e.id = d.id then d :: ds else e :: insertOrAssign d ds

/-- `update_one` (`lim` is 1) and `update_many` (-1), wrapper_collection.cpp:105-207, create_plan_update.cpp:30-39,
operator_update.cpp:60-85: the documents afterwards and the `_id`s reported as modified. -/
def update (m : Update.Math) (wf : UInt32 → UInt64) (rtl : Bool) (L : Lib) (rx : Bytes → Bytes → Res Bool)
    (ord : List (Nat × Trie) → List (Nat × Trie)) (lim : Int) (upsert : Bool) (cond fields : List (Scalar × PyObj))
    (store : List Sql.UDoc) : Res (List Sql.UDoc × List Nat) :=
  (parseFind L cond).bind fun c => (parseUpdate rtl L ord fields c.2).bind fun u =>
  (Query.fullScan lim (fun d => Query.check (checkP rx d) (toFilter u.2 c.1)) (store.map Sql.UDoc.doc)).bind fun
    | none => .ok (store, [])
    | some [] =>
      if upsert then
        (Update.runAll ⟨m, wf, paramsOf u.2⟩ none u.1 (.obj [])).bind fun r =>
        (Sql.docId r.2.1).bind fun i => .ok (insertOrAssign ⟨i, r.2.1⟩ store, [])
      else .ok (store, [])
    | some ds => Sql.updateDocs ⟨m, wf, paramsOf u.2⟩ u.1 (fun d => ds.any fun e => e.id == d.id) store

end Verif.Py
