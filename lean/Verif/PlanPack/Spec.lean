import Verif.PlanPack.Model
import Verif.DocPack.Spec
/-!
What plans there are, which of them can come back, and what it means that one does.
-/
namespace Verif.PlanPack

open Verif.DocVal Verif.Json Verif.DocPack

/-- What a plan may contain. -/
structure Rules where
  /-- The keys. -/
  key : Key → Prop
  /-- The documents. -/
  doc : Node → Prop
  /-- The values of parameters. -/
  val : V → Prop
  /-- Everything else that is not packed, or not read: parameters as operands of an expression, the unique identifier
  and the schema of a name, the source of a delete, the condition of a join, the columns of a table, chunks, filters
  without an expression and operations with one operand. -/
  lost : Prop

/-- The keys that fit in their C++ types. -/
def Key.valid : Key → Prop
  | .none => True
  | .str s => s.length < 2 ^ 31
  | .i32 v => -2 ^ 31 ≤ v ∧ v < 2 ^ 31
  | .u32 n => n < 2 ^ 32

/-- The keys that come back: names, places that are not negative, and none. -/
def Key.kept : Key → Prop
  | .none => True
  | .str s => s.length < 2 ^ 31
  | .i32 v => 0 ≤ v ∧ v < 2 ^ 31
  | .u32 _ => False

/-- Names of collections. -/
def Coll.ok (R : Rules) (c : Coll) : Prop :=
  c.db.length < 2 ^ 31 ∧ c.coll.length < 2 ^ 31 ∧ ((c.uid = [] ∧ c.schema = []) ∨ R.lost)

/-- The name no collection has. -/
def Coll.nothing : Coll := ⟨[], [], [], []⟩

/-- A comparison as `make_compare_expression` and `make_compare_union_expression` build it: `and`, `or` and `not` (10,
11, 12) have children only, others have none, and either a field or a parameter on the right. -/
def Formed (t : Nat) (l r : Key) (v : Nat) (cs : List Expr) : Prop :=
  if t = 10 ∨ t = 11 ∨ t = 12 then l = .none ∧ r = .none ∧ v = 0 else cs = [] ∧ (r = .none ∨ v = 0)

mutual
/-- Expressions. -/
def Expr.ok (R : Rules) : Expr → Prop
  | .compare t l r v cs => t < 256 ∧ v < 65536 ∧ R.key l ∧ R.key r ∧ Formed t l r v cs ∧ cs.length < 2 ^ 31 ∧ Expr.oks R cs
  | .aggregate t k ps => t < 256 ∧ R.key k ∧ ps.length < 2 ^ 31 ∧ Arg.oks R ps
  | .scalar t k ps => t < 256 ∧ R.key k ∧ ps.length < 2 ^ 31 ∧ Arg.oks R ps
  | .sort o k => (o = 1 ∨ o = -1) ∧ R.key k
def Expr.oks (R : Rules) : List Expr → Prop
  | [] => True
  | e :: es => Expr.ok R e ∧ Expr.oks R es
/-- Operands. -/
def Arg.ok (R : Rules) : Arg → Prop
  | .id n => n < 65536 ∧ R.lost
  | .key k => R.key k
  | .expr e => Expr.ok R e
def Arg.oks (R : Rules) : List Arg → Prop
  | [] => True
  | a :: as => Arg.ok R a ∧ Arg.oks R as
end

/-- Update expressions. -/
def Upd.ok (R : Rules) : Upd → Prop
  | .null => R.lost
  | .set k l => R.key k ∧ Upd.ok R l
  | .get k s => R.key k ∧ s < 256
  | .const i => i < 65536
  | .arith t l r => (3 ≤ t ∧ t ≤ 18) ∧ Upd.ok R l ∧ Upd.ok R r

/-- Filters: one expression. -/
def Match.ok (R : Rules) (m : Match) : Prop :=
  m.coll.ok R ∧ (m.exprs.length = 1 ∨ (R.lost ∧ m.exprs = [])) ∧ Expr.oks R m.exprs

/-- Limits: an `int`. -/
def Limit.ok (R : Rules) (l : Limit) : Prop := l.coll.ok R ∧ -2 ^ 31 ≤ l.n ∧ l.n < 2 ^ 31

mutual
/-- Plans. -/
def Plan.ok (R : Rules) : Plan → Prop
  | .aggregate c ps => c.ok R ∧ ps.length < 2 ^ 31 ∧ Plan.oks R ps
  | .createCollection c cols => c.ok R ∧ (cols = [] ∨ R.lost)
  | .createDatabase c => c.ok R
  | .createIndex t c n ks => t < 256 ∧ c.ok R ∧ n.length < 2 ^ 31 ∧ ks.length < 2 ^ 31 ∧ ∀ k ∈ ks, R.key k
  | .data ds => ds.length < 2 ^ 31 ∧ ∀ d ∈ ds, (∃ fs, d = .obj fs) ∧ Valid d ∧ R.doc d
  | .chunk => R.lost
  | .delete c s m l => c.ok R ∧ (s = Coll.nothing ∨ (R.lost ∧ s.ok R)) ∧ m.ok R ∧ l.ok R
  | .dropCollection c => c.ok R
  | .dropDatabase c => c.ok R
  | .dropIndex c n => c.ok R ∧ n.length < 2 ^ 31
  | .insert c ps tr => c.ok R ∧ ps.length < 2 ^ 31 ∧ Plan.oks R ps ∧ tr.length < 2 ^ 31 ∧ ∀ p ∈ tr, R.key p.1 ∧ R.key p.2
  | .join t c ps on => t < 256 ∧ c.ok R ∧ ps.length < 2 ^ 31 ∧ Plan.oks R ps ∧ (on = [] ∨ (R.lost ∧ Expr.oks R on))
  | .limit l => l.ok R
  | .filter m => m.ok R
  | .group c es => c.ok R ∧ es.length < 2 ^ 31 ∧ Expr.oks R es
  | .sort c es => c.ok R ∧ es.length < 2 ^ 31 ∧ Expr.oks R es
  | .function n is => n.length < 2 ^ 31 ∧ is.length < 2 ^ 31 ∧ ∀ i ∈ is, i < 65536
  | .update c s m l us _ => c.ok R ∧ s.ok R ∧ m.ok R ∧ l.ok R ∧ us.length < 2 ^ 31 ∧ ∀ u ∈ us, Upd.ok R u
def Plan.oks (R : Rules) : List Plan → Prop
  | [] => True
  | p :: ps => Plan.ok R p ∧ Plan.oks R ps
end

/-- Parameters: numbers of sixteen bits, each once. -/
def Params.ok (R : Rules) (ps : Params) : Prop :=
  ps.length < 2 ^ 31 ∧ (ps.map Prod.fst).Nodup ∧
  ∀ p ∈ ps, p.1 < 65536 ∧ p.2.valid ∧ (∀ s, p.2 = .str s → s.length < 2 ^ 31) ∧ R.val p.2

/-- Every plan there is. -/
def anything : Rules := ⟨Key.valid, fun _ => True, fun _ => True, True⟩

/-- The plans that come back, with values that are carried (`Verif.DocPack.Carried`). -/
def carried (shrink : Bool) : Rules := ⟨Key.kept, Every (Carried shrink), Carried shrink, False⟩

/-- The plans that come back, with values that are kept (`Verif.DocPack.Kept`). -/
def kept (shrink : Bool) : Rules := ⟨Key.kept, Every (Kept shrink), Kept shrink, False⟩

mutual
/-- The documents of a plan. -/
def Plan.docs : Plan → List Node
  | .data ds => ds
  | .aggregate _ ps => Plan.docsOf ps
  | .insert _ ps _ => Plan.docsOf ps
  | .join _ _ ps _ => Plan.docsOf ps
  | _ => []
def Plan.docsOf : List Plan → List Node
  | [] => []
  | p :: ps => Plan.docs p ++ Plan.docsOf ps
end

mutual
/-- The plan with other documents. -/
def Plan.mapDocs (f : Node → Node) : Plan → Plan
  | .data ds => .data (ds.map f)
  | .aggregate c ps => .aggregate c (Plan.mapDocsOf f ps)
  | .insert c ps tr => .insert c (Plan.mapDocsOf f ps) tr
  | .join t c ps on => .join t c (Plan.mapDocsOf f ps) on
  | p => p
def Plan.mapDocsOf (f : Node → Node) : List Plan → List Plan
  | [] => []
  | p :: ps => Plan.mapDocs f p :: Plan.mapDocsOf f ps
end

/-- The same plan, but for the types of numbers in its documents: another document in the place of each, and the same
things at the same places of both. -/
def Plan.Alike (p q : Plan) : Prop :=
  ∃ f : Node → Node, q = p.mapDocs f ∧ ∀ d ∈ p.docs, ∀ l, DocPack.Alike (seen d l) (seen (f d) l)

/-- The same parameters, but for the types of numbers. -/
def Params.Alike (ps qs : Params) : Prop := List.Forall₂ (fun a b => a.1 = b.1 ∧ SameV a.2 b.2) ps qs

end Verif.PlanPack
