import Verif.Py.Model
import Verif.Query.Model
/-!
Model of how the Python interface reads a condition (integration/python/sql/convert.cpp:233-346,
components/expressions/compare_expression.cpp) and what the expression made of it accepts
(components/physical_plan/collection/operators/predicates/simple_predicate.cpp).

Simplifications: as in `Verif.Py.Model` and `Verif.Query.Model`; the tape of the parameters is their values; no index is
used (those are the subject of `Verif.Query.IndexModel`).
-/
namespace Verif.Py

open Verif.DocVal

/-- `compare_type`, expressions/forward.hpp:21-38. -/
inductive CType where
  | invalid | eq | ne | gt | lt | gte | lte | regex | any | all | unionAnd | unionOr | unionNot | allTrue | allFalse
deriving DecidableEq, Repr

/-- The names of `compare_type` for `magic_enum::enum_cast`: invalid, eq, ne, gt, lt, gte, lte, regex, any, all,
union_and, union_or, union_not, all_true, all_false. -/
def cNames : List (Bytes × CType) :=
  [([105, 110, 118, 97, 108, 105, 100], .invalid), ([101, 113], .eq), ([110, 101], .ne), ([103, 116], .gt), ([108, 116], .lt),
   ([103, 116, 101], .gte), ([108, 116, 101], .lte), ([114, 101, 103, 101, 120], .regex), ([97, 110, 121], .any), ([97, 108, 108], .all),
   ([117, 110, 105, 111, 110, 95, 97, 110, 100], .unionAnd), ([117, 110, 105, 111, 110, 95, 111, 114], .unionOr),
   ([117, 110, 105, 111, 110, 95, 110, 111, 116], .unionNot), ([97, 108, 108, 95, 116, 114, 117, 101], .allTrue),
   ([97, 108, 108, 95, 102, 97, 108, 115, 101], .allFalse)]

/-- `enum_cast`. -/
def enumCast (n : Bytes) : List (Bytes × CType) → Option CType
  | [] => none
  | (m, t) :: l => if m = n then some t else enumCast n l

/-- `$and`, `$or`, `$not`. -/
def kAnd : Bytes := [36, 97, 110, 100]
def kOr : Bytes := [36, 111, 114]
def kNot : Bytes := [36, 110, 111, 116]

/-- `get_compare_type`, compare_expression.cpp:149-162: what the first character is does not matter. -/
def getType (key : Bytes) : CType :=
  if key = [] then .invalid
  else match enumCast (key.drop 1) cNames with
    | some t => t
    | none => if key = kAnd then .unionAnd else if key = kOr then .unionOr else if key = kNot then .unionNot else .invalid

/-- `is_union_compare_condition`, compare_expression.cpp:9-11. -/
def CType.isUnion : CType → Bool
  | .unionAnd | .unionOr | .unionNot => true
  | _ => false

/-- `compare_expression_t`: its type, the left key if there is one, the parameter and the children. -/
inductive Expr where
  | mk (type : CType) (key : Option Bytes) (param : Nat) (children : List Expr)

/-- `parameter_node_t`, param_storage.hpp:56-87: a counter of 16 bits and a map from ids to values, `none` the value that
is none. -/
structure Store where
  counter : Nat
  vals : List (Nat × Option V)
deriving DecidableEq, Repr

/-- The value of an id. -/
def find? (n : Nat) : List (Nat × Option V) → Option (Option V)
  | [] => none
  | (m, v) :: l => if m = n then some v else find? n l

/-- `add_parameter`, param_storage.hpp:72-77 and 50-52, `next_id`, param_storage.cpp:26-30. -/
def Store.add (st : Store) (v : Option V) : Nat × Store :=
  (st.counter, ⟨(st.counter + 1) % 2 ^ 16, if (find? st.counter st.vals).isSome then st.vals else st.vals ++ [(st.counter, v)]⟩)

/-- `py::str(it).cast<std::string>()`. -/
def keyStr (L : Lib) : Scalar → Res Bytes
  | .str s => .ok s
  | .badStr => .throws
  | x => .ok (L.text x)

/-- `normalize`, convert.cpp:233-237. -/
def normalize : Expr → Expr
  | .mk t k p cs => if t = .invalid ∧ k ≠ none then .mk .eq k p cs else .mk t k p cs

/-- The type and the key, convert.cpp:265-272. -/
def typeKey (prev word : Bytes) : CType × Bytes :=
  if getType word ≠ .invalid then (getType word, prev)
  else if getType prev ≠ .invalid then (getType prev, word)
  else (.invalid, prev)

/-- The last branch of `parse_find_condition_`, convert.cpp:278-284: a union calls itself with the same value; `fuel` bounds
how often. -/
def parseLeaf (L : Lib) (x : Scalar) : Nat → Bytes → Bytes → Store → Res (List Expr × Store)
  | 0, _, _, _ => .diverges
  | fuel + 1, prev, word, st =>
    (scalarV L x).bind fun v =>
      let (t, k) := typeKey prev word
      let (id, st1) := st.add v
      (if t.isUnion then parseLeaf L x fuel k [] st1 else .ok ([], st1)).bind fun r =>
        .ok ([normalize (.mk t (some k) id r.1)], r.2)

mutual
/-- `parse_find_condition_`, convert.cpp:258-286: the children it appends. -/
def parseCond (L : Lib) : PyObj → Bytes → Bytes → Store → Res (List Expr × Store)
  | .dict es, prev, word, st => parseDict L es (typeKey prev word).2 st
  | .list xs, prev, word, st => parseArr L xs (typeKey prev word).2 st
  | .tuple xs, prev, word, st => parseArr L xs (typeKey prev word).2 st
  | .scalar x, prev, word, st => parseLeaf L x 3 prev word st
/-- `parse_find_condition_dict_`, convert.cpp:288-309. -/
def parseDict (L : Lib) : List (Scalar × PyObj) → Bytes → Store → Res (List Expr × Store)
  | [], _, st => .ok ([], st)
  | (k, v) :: es, prev, st =>
    (keyStr L k).bind fun key =>
    (if prev = [] then parseCond L v key [] st else parseCond L v prev key st).bind fun a =>
    (parseDict L es prev a.2).bind fun r =>
      .ok ((if (getType key).isUnion then [.mk (getType key) none 0 a.1] else a.1) ++ r.1, r.2)
/-- `parse_find_condition_array_`, convert.cpp:311-320. -/
def parseArr (L : Lib) : List PyObj → Bytes → Store → Res (List Expr × Store)
  | [], _, st => .ok ([], st)
  | x :: xs, prev, st =>
    (parseCond L x prev [] st).bind fun a => (parseArr L xs prev a.2).bind fun r => .ok (a.1 ++ r.1, r.2)
end

/-- The loop over the whole condition, convert.cpp:327-338. -/
def parseTop (L : Lib) : List (Scalar × PyObj) → Store → Res (List Expr × Store)
  | [], st => .ok ([], st)
  | (k, v) :: es, st =>
    (keyStr L k).bind fun key => (parseCond L v key [] st).bind fun a => (parseTop L es a.2).bind fun r => .ok (a.1 ++ r.1, r.2)

/-- The type of the root, convert.cpp:326 and 328-330: that of the key if there is one key. -/
def rootType (L : Lib) : List (Scalar × PyObj) → Res CType
  | [(k, _)] => (keyStr L k).bind fun key => .ok (getType key)
  | _ => .ok .unionAnd

/-- The end of `parse_find_condition_`, convert.cpp:339-345: a single child stands for itself, else the type is a union. -/
def finish (t : CType) : List Expr → Expr
  | [c] => normalize c
  | cs => .mk (if t.isUnion then t else .unionAnd) none 0 cs

/-- `parse_find_condition_`, convert.cpp:322-346. -/
def parseFind (L : Lib) (es : List (Scalar × PyObj)) : Res (Expr × Store) :=
  (rootType L es).bind fun t => (parseTop L es ⟨0, []⟩).bind fun r => .ok (finish t r.1, r.2)

/-- A leaf with the value of its parameter; `none`: there is no such parameter. -/
inductive PLeaf where
  | cmp (c : Query.Cmp) (key : Bytes) (v : Option (Option V))
  | regex (key : Bytes) (v : Option (Option V))
  | allTrue
  | allFalse

/-- The cases of `create_simple_predicate`, simple_predicate.cpp:58-236: other types accept everything. -/
def leafOf (st : Store) (t : CType) (k : Bytes) (p : Nat) : PLeaf :=
  match t with
  | .eq => .cmp .eq k (find? p st.vals)
  | .ne => .cmp .ne k (find? p st.vals)
  | .gt => .cmp .gt k (find? p st.vals)
  | .gte => .cmp .gte k (find? p st.vals)
  | .lt => .cmp .lt k (find? p st.vals)
  | .lte => .cmp .lte k (find? p st.vals)
  | .regex => .regex k (find? p st.vals)
  | .allFalse => .allFalse
  | _ => .allTrue

mutual
/-- `create_simple_predicate`, simple_predicate.cpp:43-57. -/
def toFilter (st : Store) : Expr → Query.Filter PLeaf
  | .mk .unionAnd _ _ cs => .and (toFilters st cs)
  | .mk .unionOr _ _ cs => .or (toFilters st cs)
  | .mk .unionNot _ _ cs => .not (toFilters st cs)
  | .mk t k p _ => .leaf (leafOf st t (k.getD []) p)
def toFilters (st : Store) : List Expr → List (Query.Filter PLeaf)
  | [] => []
  | c :: cs => toFilter st c :: toFilters st cs
end

/-- What a leaf says of a document, simple_predicate.cpp:58-236; `rx` is the regular expression library. -/
def checkP (rx : Bytes → Bytes → Res Bool) (d : Query.Doc) : PLeaf → Res Bool
  | .cmp _ _ none => .ok false
  | .cmp c k (some v) => (compareTo (d.get k) v).bind fun o => .ok (c.ok o)
  | .regex _ none => .ok false
  | .regex k (some v) => match d.get k with
    | .scalar (.str s) => rx s (Query.asText v)
    | _ => .ok false
  | .allTrue => .ok true
  | .allFalse => .ok false

/-- Whether `find` with a condition accepts a document. -/
def accepts (L : Lib) (rx : Bytes → Bytes → Res Bool) (es : List (Scalar × PyObj)) (d : Query.Doc) : Res Bool :=
  (parseFind L es).bind fun r => Query.check (checkP rx d) (toFilter r.2 r.1)

/-- `find` with a condition (wrapper_collection.cpp:209-222) over the documents of a collection, without an index: a full
scan without a limit. -/
def find (L : Lib) (rx : Bytes → Bytes → Res Bool) (es : List (Scalar × PyObj)) (store : List Query.Doc) :
    Res (Option (List Query.Doc)) :=
  (parseFind L es).bind fun r => Query.fullScan (-1) (fun d => Query.check (checkP rx d) (toFilter r.2 r.1)) store

end Verif.Py
