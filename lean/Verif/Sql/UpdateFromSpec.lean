import Verif.Sql.UpdateSpec
import Verif.Sql.UpdateFromModel
/-!
What UPDATE with FROM means.
-/
namespace Verif.Sql

open Verif.DocVal Verif.Query Verif.PhysKey

/-- The value of an expression for a document of `tl` and one of `ts`; nothing for what is NULL or left open here (columns
without their table). -/
def SExpr.valueFrom (tl ts : Bytes) (n s : Json.Node) : SExpr → Option V
  | .lit .null => none
  | .lit l => some l.value
  | .col none _ => none
  | .col (some t) k => if t = tl then column n k else if t = ts then column s k else none
  | .op o x y => match x.valueFrom tl ts n s, y.valueFrom tl ts n s with
    | some a, some b => evalOp o a b
    | _, _ => none
  | .un _ _ => none
  | .other => none

/-- The document `n'` is `n` with each assigned column holding the value its expression has for `n` and `s`, and everything
else as it was. -/
def AssignedFrom (tl ts : Bytes) (sets : List (Bytes × SExpr)) (s n n' : Json.Node) : Prop :=
  (∀ p ∈ sets, ∃ v w, p.2.valueFrom tl ts n s = some v ∧ Json.seen n' [.name p.1] = some (.value w) ∧ Update.Same w v) ∧
  ∀ l, (∀ p ∈ sets, ¬ [Json.Key.name p.1] <+: l) → Json.seen n' l = Json.seen n l

/-- Some assignment changes the value of its column. -/
def AlteredFrom (tl ts : Bytes) (sets : List (Bytes × SExpr)) (s n : Json.Node) : Prop :=
  ∃ p ∈ sets, ∃ v w, p.2.valueFrom tl ts n s = some v ∧ column n p.1 = some w ∧ ¬ Update.Same w v

/-- The columns of `tl` an expression reads. -/
def SExpr.readsOf (tl : Bytes) : SExpr → List Bytes
  | .col (some t) k => if t = tl then [k] else []
  | .op _ x y => x.readsOf tl ++ y.readsOf tl
  | _ => []

/-- Constants (truth values, texts, integers), columns with their table, and `+`, `-`, `*`, `/`, `%`. -/
def SExpr.plainFrom (tl ts : Bytes) : SExpr → Prop
  | .lit (.num _ _) => False
  | .lit .null => False
  | .lit (.int n) => ITy.i64.fits n
  | .lit _ => True
  | .col t k => (t = some tl ∨ t = some ts) ∧ Name k
  | .op o x y => arith o ≠ none ∧ x.plainFrom tl ts ∧ y.plainFrom tl ts
  | _ => False

/-- No assignment reads a column assigned before it. -/
def IndependentFrom (tl : Bytes) : List (Bytes × SExpr) → Prop
  | [] => True
  | (k, _) :: ss => (∀ p ∈ ss, k ∉ p.2.readsOf tl) ∧ IndependentFrom tl ss

/-- The columns of the two documents: integers within their types; the assigned ones present and of the kind of the new
value, which can be stored. -/
def KindredFrom (tl ts : Bytes) (sets : List (Bytes × SExpr)) (s n : Json.Node) : Prop :=
  (∀ k t a, column n k = some (.int t a) → t.fits a) ∧ (∀ k t a, column s k = some (.int t a) → t.fits a) ∧
  ∀ p ∈ sets, ∃ v w, p.2.valueFrom tl ts n s = some v ∧ Update.Sound v ∧ column n p.1 = some w ∧ Update.Kin w v ∧
    ∀ b, w = .double b → Num.decode64 b ≠ .nan

/-- The columns of `tl` a condition reads. -/
def Cond.colsOf (tl : Bytes) : Cond → List Bytes
  | .op _ x y => side x ++ side y
  | .and l r => l.colsOf tl ++ r.colsOf tl
  | .or l r => l.colsOf tl ++ r.colsOf tl
  | .not c => c.colsOf tl
  | _ => []
where side : Operand → List Bytes
  | .col t k => if t = some tl then [k] else []
  | _ => []

/-- The two documents satisfy the condition. -/
def Partners (rx : Bytes → Bytes → Res Bool) (tl : Bytes) (c : Cond) (d r : UDoc) : Prop := Joins rx tl c d.doc.fields r.doc.fields

instance (rx : Bytes → Bytes → Res Bool) (tl : Bytes) (c : Cond) (d r : UDoc) : Decidable (Partners rx tl c d r) := by unfold Partners; exact inferInstance

/-- What an update makes of each document: one with partners is assigned to from one of them, one without stays. -/
def UpdatedFrom (rx : Bytes → Bytes → Res Bool) (tl ts : Bytes) (sets : List (Bytes × SExpr)) (c : Cond) (other : List UDoc) (d d' : UDoc) : Prop :=
  d'.id = d.id ∧ ((∃ r ∈ other, Partners rx tl c d r) → ∃ r ∈ other, Partners rx tl c d r ∧ AssignedFrom tl ts sets r.node d.node d'.node) ∧
  ((∀ r ∈ other, ¬ Partners rx tl c d r) → d' = d)

/-- The statement has a meaning: different columns are assigned to, expressions and condition are plain and can be
evaluated for all pairs, and the new values can be stored. -/
structure UpdatableFrom (rx : Bytes → Bytes → Res Bool) (tl ts : Bytes) (sets : List (Bytes × SExpr)) (c : Cond) (store other : List UDoc) : Prop where
  tables : tl ≠ ts
  small : store.length < 2 ^ 31 ∧ other.length < 2 ^ 31
  consts : (sets.map fun p => p.2.consts).sum + c.consts ≤ 2 ^ 16
  cond : c.sided tl ts
  names : (sets.map Prod.fst).Nodup ∧ ∀ p ∈ sets, Name p.1
  exprs : (∀ p ∈ sets, p.2.plainFrom tl ts) ∧ IndependentFrom tl sets
  objects : (∀ d ∈ store, Json.seen d.node [] = some .object) ∧ ∀ r ∈ other, Json.seen r.node [] = some .object
  ready : ∀ d ∈ store, ∀ r ∈ other, c.ready rx (pairOf tl d.doc.fields r.doc.fields)
  kin : ∀ d ∈ store, ∀ r ∈ other, Partners rx tl c d r → KindredFrom tl ts sets r.node d.node
  ids : (store.map UDoc.id).Nodup

/-- The statement did what it means: documents with partners are assigned to from one of them, and those changed are
reported, once. -/
def DoneFrom (rx : Bytes → Bytes → Res Bool) (tl ts : Bytes) (sets : List (Bytes × SExpr)) (c : Cond) (store other : List UDoc) (out : Res (List UDoc × List Nat)) : Prop :=
  ∃ store' ids, out = .ok (store', ids) ∧ List.Forall₂ (UpdatedFrom rx tl ts sets c other) store store' ∧ ids.Nodup

end Verif.Sql
