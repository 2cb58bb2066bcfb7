import Verif.Query.Model
/-!
What C19 and C22 say.
-/
namespace Verif.Query

open Verif.DocVal

/-- The documents a limit lets through: all for -1, else the first `lim` (none if it is negative). -/
def firstN (lim : Int) (ds : List Doc) : List Doc := if lim = -1 then ds else ds.take lim.toNat

/-- A call answers with these documents; no output stands for none. -/
def Answers (r : Res (Option (List Doc))) (ds : List Doc) : Prop := r = .ok (some ds) ∨ (ds = [] ∧ r = .ok none)

/-- The documents a predicate accepts, in order. -/
def accepted (p : Doc → Res Bool) (ds : List Doc) : List Doc := ds.filter fun d => decide (p d = .ok true)

/-- The predicate gives an answer for each document. -/
def Defined (p : Doc → Res Bool) (ds : List Doc) : Prop := ∀ d ∈ ds, ∃ b, p d = .ok b

mutual
/-- The Boolean combination of sub-filters; `not` has one child. -/
def Filter.holds {α : Type} (P : α → Prop) : Filter α → Prop
  | .leaf a => P a
  | .and fs => allHold P fs
  | .or fs => anyHolds P fs
  | .not fs => notHolds P fs
def allHold {α : Type} (P : α → Prop) : List (Filter α) → Prop
  | [] => True
  | f :: fs => f.holds P ∧ allHold P fs
def anyHolds {α : Type} (P : α → Prop) : List (Filter α) → Prop
  | [] => False
  | f :: fs => f.holds P ∨ anyHolds P fs
def notHolds {α : Type} (P : α → Prop) : List (Filter α) → Prop
  | [f] => ¬ f.holds P
  | _ => False
end

mutual
/-- Every `not` has one child, and every leaf satisfies `Q`. -/
def Filter.proper {α : Type} (Q : α → Prop) : Filter α → Prop
  | .leaf a => Q a
  | .and fs => allProper Q fs
  | .or fs => allProper Q fs
  | .not fs => oneProper Q fs
def allProper {α : Type} (Q : α → Prop) : List (Filter α) → Prop
  | [] => True
  | f :: fs => f.proper Q ∧ allProper Q fs
def oneProper {α : Type} (Q : α → Prop) : List (Filter α) → Prop
  | [f] => f.proper Q
  | _ => False
end

/-- The comparison of two numbers that a comparison operator stands for. -/
def Cmp.rel : Cmp → Int → Int → Prop
  | .eq, a, b => a = b
  | .ne, a, b => a ≠ b
  | .gt, a, b => b < a
  | .gte, a, b => b ≤ a
  | .lt, a, b => a < b
  | .lte, a, b => a ≤ b

/-- The filter a tree of merges stands for. -/
def Plan.filter : Plan → Filter Leaf
  | .scan _ f => f
  | .and _ l r => .and [l.filter, r.filter]
  | .or _ l r => .or [l.filter, r.filter]
  | .not _ l => .not [l.filter]

/-- No operator of the tree has a limit. -/
def Plan.unlimited : Plan → Prop
  | .scan lim _ => lim = -1
  | .and lim l r => lim = -1 ∧ l.unlimited ∧ r.unlimited
  | .or lim l r => lim = -1 ∧ l.unlimited ∧ r.unlimited
  | .not lim l => lim = -1 ∧ l.unlimited

/-- The leaf accepts the document. -/
def leafTrue (env : Env) (d : Doc) (a : Leaf) : Prop := checkLeaf env d none a = .ok true

/-- The leaf gives an answer for the document. -/
def leafDefined (env : Env) (d : Doc) (a : Leaf) : Prop := ∃ b, checkLeaf env d none a = .ok b

/-- The document satisfies the filter. -/
def Sat (env : Env) (d : Doc) (f : Filter Leaf) : Prop := f.holds (leafTrue env d)

/-- `_id`s are unique. -/
def UniqueIds (ds : List Doc) : Prop := (ds.map Doc.id).Nodup

end Verif.Query
