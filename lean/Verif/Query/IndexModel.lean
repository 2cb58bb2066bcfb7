import Verif.Query.WriteModel
import Verif.LogVal.Model
/-!
Model of the secondary index in memory and of the scan through it (components/index/single_field_index.cpp,
index_engine.cpp, components/physical_plan/collection/operators/scan/index_scan.cpp).

Simplifications: as in `Query/Model`; one index on one top level field, without a disk agent; `absl::btree_multimap` is the
list of its entries in order, a search by key is the partition point of that list.
-/
namespace Verif.Query

open Verif.DocVal Verif.LogVal Verif.PhysKey Verif.Num

/-- `value_t::as_logical_value`, value.cpp:97-129: 128-bit numbers and everything else become null. -/
def logical : V → LV
  | .bool b => .bool b
  | .int t v => .int t v
  | .float b => .float (decode32 b)
  | .double b => .double (decode64 b)
  | .str s => .str s
  | .na => .na
  | .big _ => .na
  | .other _ => .na

/-- Key and document of an entry, single_field_index.hpp:15. -/
structure Entry where
  key : LV
  doc : Doc
deriving DecidableEq, Repr

/-- `is_match_document` then `get_value_by_index`, index_engine.cpp:94-102, 128-135: a document without the field is not
indexed; the value of an object or array is empty, and its type is read through a null pointer. -/
def keyOf (f : Bytes) (d : Doc) : Res (Option LV) :=
  match d.get f with
  | .missing => .ok none
  | .container => .ub
  | .scalar v => .ok (some (logical v))

/-- `storage_.insert`, single_field_index.cpp:32-34: after the entries with an equal key. -/
def mmInsert (k : LV) (d : Doc) : List Entry → List Entry
  | [] => [⟨k, d⟩]
  | e :: es => if LV.lt k e.key then ⟨k, d⟩ :: e :: es else e :: mmInsert k d es

/-- `lower_bound`, single_field_index.cpp:51-54: the entries below the key. -/
def below (k : LV) (es : List Entry) : List Entry := es.takeWhile fun e => LV.lt e.key k

/-- `upper_bound`, single_field_index.cpp:56-59: the entries above the key. -/
def above (k : LV) (es : List Entry) : List Entry := es.dropWhile fun e => !LV.lt k e.key

/-- `equal_range`, single_field_index.cpp:46-49. -/
def equalTo (k : LV) (es : List Entry) : List Entry := (es.dropWhile fun e => LV.lt e.key k).takeWhile fun e => !LV.lt k e.key

/-- `storage_.erase(storage_.find(key))`, single_field_index.cpp:42-44: the first entry with an equal key; without one
`erase(end())` is undefined. -/
def mmErase (k : LV) : List Entry → Res (List Entry)
  | [] => .ub
  | e :: es => if LV.lt e.key k then (mmErase k es).map' (e :: ·) else if LV.lt k e.key then .ub else .ok es

/-- `index_engine_t::insert_document`, index_engine.cpp:220-233. -/
def idxInsert (f : Bytes) (d : Doc) (es : List Entry) : Res (List Entry) :=
  (keyOf f d).bind fun k => match k with
    | none => .ok es
    | some k => .ok (mmInsert k d es)

/-- `index_engine_t::delete_document`, index_engine.cpp:235-248. -/
def idxDelete (f : Bytes) (d : Doc) (es : List Entry) : Res (List Entry) :=
  (keyOf f d).bind fun k => match k with
    | none => .ok es
    | some k => mmErase k es

/-- Documents are shared, an update changes them in place: the entries of the document see the new one. -/
def rewrite (d : Doc) (es : List Entry) : List Entry := es.map fun e => if e.doc.id = d.id then ⟨e.key, d⟩ else e

/-- A collection with one index. -/
structure IColl where
  store : List Doc
  index : List Entry
deriving DecidableEq, Repr

/-- What happens to one document. -/
inductive IOp where
  | insert (d : Doc)
  | delete (d : Doc)
  | update (d d' : Doc)

/-- One step: operator_insert.cpp:27-28; operator_delete.cpp:35-40; operator_update.cpp:73-87 (removed from the index,
changed, put back). -/
def istep (f : Bytes) (c : IColl) : IOp → Res IColl
  | .insert d => (idxInsert f d c.index).bind fun es => .ok ⟨assign d c.store, es⟩
  | .delete d =>
    if hasId c.store d.id then (idxDelete f d c.index).bind fun es => .ok ⟨remove d.id c.store, es⟩ else .ok c
  | .update d d' =>
    (idxDelete f d c.index).bind fun es => (idxInsert f d' (rewrite d' es)).bind fun es' => .ok ⟨assign d' c.store, es'⟩

/-- A history. -/
def irun (f : Bytes) (c : IColl) : List IOp → Res IColl
  | [] => .ok c
  | o :: os => (istep f c o).bind fun c' => irun f c' os

/-- The key under which creating an index puts a document, index_engine.cpp:48-52: null is left out, and for a missing
field, an object or an array the type of an empty value is read through a null pointer. -/
def buildKey (f : Bytes) (d : Doc) : Res (Option LV) :=
  match d.get f with
  | .missing => .ub
  | .container => .ub
  | .scalar .na => .ok none
  | .scalar v => .ok (some (logical v))

/-- Creating an index on a collection, index_engine.cpp:40-55. -/
def buildIndex (f : Bytes) : List Doc → List Entry → Res (List Entry)
  | [], es => .ok es
  | d :: ds, es => (buildKey f d).bind fun k => match k with
    | none => buildIndex f ds es
    | some k => buildIndex f ds (mmInsert k d es)

/-- `search_range_by_index`, index_scan.cpp:9-32, the ranges one after the other. -/
def ranges (c : Cmp) (k : LV) (es : List Entry) : List Entry :=
  match c with
  | .eq => equalTo k es
  | .ne => below k es ++ above k es
  | .gt => above k es
  | .lt => below k es
  | .gte => equalTo k es ++ above k es
  | .lte => below k es ++ equalTo k es

/-- The loop of `search_by_index`, index_scan.cpp:40-49. -/
def searchLoop (lim : Int) : List Entry → Nat → Res (List Doc)
  | [], _ => .ok []
  | e :: es, n => if limOk lim n then (inc n).bind fun n' => (searchLoop lim es n').bind fun r => .ok (e.doc :: r) else .ok []

/-- The value of the comparison: `get_parameter(parameters, expr->value())`, index_scan.cpp:14.  A missing parameter is a
reference to a temporary (param_storage.cpp:11-18), and the parameter of a comparison with a field is parameter 0
(compare_expression.cpp:23-32, strong_typedef.hpp:20-22). -/
def scanKey (env : Env) (rhs : Rhs) : Res LV :=
  match env.params (match rhs with | .param n => n | .key _ => 0) with
  | some v => .ok (logical v)
  | none => .ub

/-- `index_scan::on_execute_impl`, index_scan.cpp:59-81, without a disk agent. -/
def indexScan (lim : Int) (env : Env) (c : Cmp) (rhs : Rhs) (es : List Entry) : Res (Option (List Doc)) :=
  if limOk lim 0 then (scanKey env rhs).bind fun k => (searchLoop lim (ranges c k es) 0).bind fun r => .ok (some r) else .ok none

end Verif.Query
