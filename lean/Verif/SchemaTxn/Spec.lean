import Verif.SchemaTxn.Model
/-!
What a schema transaction is meant to do.
-/
namespace Verif.SchemaTxn

/-- What a user sees of a column: name, type (with what its extension holds), required, doc. -/
structure View where
  name : Name
  base : Nat
  kind : Nat
  req : Bool
  doc : String
deriving DecidableEq, Repr

def Ty.kind (t : Ty) : Nat := match t.ext with
  | none => 0
  | some e => e.1

def Col.view (c : Col) : View := ⟨c.name, c.ty.base, c.ty.kind, c.req, c.doc⟩

/-- One change, applied to the columns there are. -/
def viewStep (vs : List View) : Op → List View
  | .add a ty req doc => vs ++ [⟨a, ty.base, ty.kind, req, doc⟩]
  | .delete a => vs.filter fun v => v.name ≠ a
  | .rename a b => vs.map fun v => if v.name = a then { v with name := b } else v
  | .updateType a ty => vs.map fun v => if v.name = a then { v with base := ty.base, kind := ty.kind } else v
  | .updateDoc a doc => vs.map fun v => if v.name = a then { v with doc := doc } else v
  | .setRequired a req => vs.map fun v => if v.name = a then { v with req := req } else v
  | _ => vs

/-- The changes one after the other. -/
def viewRun (ops : List Op) (vs : List View) : List View := ops.foldl viewStep vs

/-- The transaction after a list of calls. -/
def txnRun : List Op → Txn → Res Txn
  | [], t => .ok t
  | o :: ops, t => (t.call o).bind fun t' => txnRun ops t'

/-- A change of columns. -/
def Op.isChange : Op → Bool
  | .describe _ => false
  | .savepoint _ => false
  | .rollback _ => false
  | _ => true

/-- The column names a change speaks of. -/
def Op.mentions : Op → List Name
  | .add a _ _ _ => [a]
  | .delete a => [a]
  | .rename a b => [a, b]
  | .updateType a _ => [a]
  | .updateDoc a _ => [a]
  | .setRequired a _ => [a]
  | _ => []

/-- The names a change introduces. -/
def Op.news : Op → List Name
  | .add a _ _ _ => [a]
  | .rename _ b => [b]
  | _ => []

def mentioned (ops : List Op) : List Name := ops.flatMap Op.mentions

/-- The columns of a valid schema: all named, names and ids unique. -/
structure Valid (cols : List Col) : Prop where
  named : ∀ c ∈ cols, c.ty.ext ≠ none
  names : (cols.map Col.name).Nodup
  ids : (cols.map Col.id).Nodup

/-- Every column name is used by one change only, new names are new, and a type is only replaced by one without
extension, in a column whose type has none but the name. -/
structure Tame (ops : List Op) (cols : List Col) : Prop where
  change : ∀ o ∈ ops, o.isChange = true
  once : (mentioned ops).Nodup
  fresh : ∀ o ∈ ops, ∀ a ∈ o.news, a ∉ cols.map Col.name
  plain : ∀ a ty, Op.updateType a ty ∈ ops → ty.ext = none ∧ ∀ c ∈ cols, c.name = a → c.ty.kind = 0

/-! ### the life of a scope -/

/-- What happens: calls on the transaction, commit, abort, the end of the scope; and, from outside, any change of the
world, or the end of the catalog. -/
inductive Act where
  | op (o : Op)
  | commit
  | abort
  | destroy
  | world (w : World)
  | gone
deriving DecidableEq, Repr

structure St where
  scope : Scope
  world : World
deriving DecidableEq, Repr

def actStep (s : St) : Act → Res St
  | .op o => (s.scope.txn.call o).bind fun t => .ok { s with scope := { s.scope with txn := t } }
  | .commit => .ok ⟨(s.scope.commit s.world).1, (s.scope.commit s.world).2.1⟩
  | .abort => .ok { s with scope := s.scope.abort }
  | .destroy => .ok { s with scope := s.scope.destroy }
  | .world w => .ok { s with world := w }
  | .gone => .ok { s with scope := { s.scope with alive := false } }

/-- A list of actions. -/
def actRun : List Act → St → Res St
  | [], s => .ok s
  | a :: acts, s => (actStep s a).bind fun s' => actRun acts s'

/-- The history of states. -/
inductive Hist (w : World) : List Act → St → Prop
  | init : Hist w [] ⟨Scope.begin, w⟩
  | step {acts s a s'} : Hist w acts s → actStep s a = .ok s' → Hist w (acts ++ [a]) s'

end Verif.SchemaTxn
