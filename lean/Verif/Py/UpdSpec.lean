import Verif.Py.UpdModel
import Verif.Py.FindSpec
import Verif.Sql.UpdateSpec
/-!
What C93 says: updates as their users read them.
-/
namespace Verif.Py

open Verif.DocVal Verif.PhysKey Verif.Num

/-- The bytes of a text. -/
def text (s : String) : Bytes := s.toUTF8.toList

/-- The entry of a `dict` with a name. -/
def entry (k : Bytes) : List (Scalar × PyObj) → Option PyObj
  | [] => none
  | (x, o) :: es => if x = .str k then some o else entry k es

/-- The fields of `$set` or `$inc`: a `dict` of scalars, or nothing if it is not there. -/
def Lists (fields : List (Scalar × PyObj)) (k : Bytes) (ps : List (Bytes × Scalar)) : Prop :=
  entry k fields = some (.dict (ps.map fun p => (.str p.1, .scalar p.2))) ∨ (entry k fields = none ∧ ps = [])

/-- The field of a document, if it is a value. -/
def fieldV (n : Json.Node) (k : Bytes) : Option V :=
  match Json.seen n [.name k] with
  | some (.value v) => some v
  | _ => none

/-- What a field becomes by `$set`: the value. -/
def SetTo (L : Lib) (x : Scalar) (v : V) : Prop := x.value L = some v

/-- What a field becomes by `$inc`: the sum, for an absent field the number itself; the sum of two floats is that of the
machine. -/
inductive IncTo (m : Update.Math) : Option V → Scalar → V → Prop where
  | int (s : ITy) (a b : Int) (hs : s.signed = true) (ha : s.fits a) (h : ITy.i64.fits (a + b)) :
      IncTo m (some (.int s a)) (.int b) (.int .i64 (a + b))
  | float (a b : UInt64) : IncTo m (some (.double a)) (.float b) (.double (m.bin64 .add (decode64 a) (decode64 b)))
  | fresh (b : Int) : IncTo m none (.int b) (.int .i64 b)

/-- The document `n'` is `n` with the fields of `$set` set and the fields of `$inc` increased, and everything else as it
was. -/
def Becomes (m : Update.Math) (L : Lib) (sets incs : List (Bytes × Scalar)) (n n' : Json.Node) : Prop :=
  (∀ p ∈ sets, ∃ v w, SetTo L p.2 v ∧ fieldV n' p.1 = some w ∧ Update.Same w v) ∧
  (∀ p ∈ incs, ∃ v w, IncTo m (fieldV n p.1) p.2 v ∧ fieldV n' p.1 = some w ∧ Update.Same w v) ∧
  ∀ l, (∀ p ∈ sets ++ incs, ¬ [Json.Key.name p.1] <+: l) → Json.seen n' l = Json.seen n l

/-- The new value `v` can be assigned over the old one: it is a value that can be stored, of the kind of the old one; if
there is no old one, the new one is not `False`, zero or the empty text. -/
def Over (n : Json.Node) (k : Bytes) (v : V) : Prop :=
  Update.Sound v ∧
  ((Json.seen n [.name k] = none ∧ ¬ Update.Zero v) ∨
    ∃ w, Json.seen n [.name k] = some (.value w) ∧ Update.Kin w v ∧ ∀ b, w = .double b → decode64 b ≠ .nan)

/-- The update has a meaning for the document: it is an object and the new values can be assigned. -/
def Ready (m : Update.Math) (L : Lib) (sets incs : List (Bytes × Scalar)) (n : Json.Node) : Prop :=
  Json.seen n [] = some .object ∧
  (∀ p ∈ sets, ∃ v, SetTo L p.2 v ∧ Over n p.1 v) ∧
  ∀ p ∈ incs, ∃ v, IncTo m (fieldV n p.1) p.2 v ∧ Over n p.1 v

/-- Some field gets another value than it had. -/
def Differs (m : Update.Math) (L : Lib) (sets incs : List (Bytes × Scalar)) (n : Json.Node) : Prop :=
  (∃ p ∈ sets, ∃ v, SetTo L p.2 v ∧ ∀ w, fieldV n p.1 = some w → ¬ Update.Same w v) ∨
  ∃ p ∈ incs, ∃ v, IncTo m (fieldV n p.1) p.2 v ∧ ∀ w, fieldV n p.1 = some w → ¬ Update.Same w v

/-- The update as it is written, and what is required of it: `$set` and `$inc` name different fields, by names that are no
paths. -/
structure Wellformed (L : Lib) (fields : List (Scalar × PyObj)) (sets incs : List (Bytes × Scalar)) : Prop where
  plain : (PyObj.dict fields).all (Scalar.plain L)
  weight : weightFields L fields < 2 ^ 56
  listsSet : Lists fields (text "$set") sets
  listsInc : Lists fields (text "$inc") incs
  names : ∀ p ∈ sets ++ incs, Sql.Name p.1
  distinct : ((sets ++ incs).map Prod.fst).Nodup

/-- The first document that satisfies a condition. -/
def firstOf (P : Sql.UDoc → Prop) (store : List Sql.UDoc) (d : Sql.UDoc) : Prop :=
  ∃ a b, store = a ++ d :: b ∧ P d ∧ ∀ e ∈ a, ¬ P e

end Verif.Py
