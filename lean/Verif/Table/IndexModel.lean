import Verif.Table.OpsProps
/-!
Model of a table with a secondary index: `operator_insert`, `operator_delete` and `index_scan` of
components/physical_plan/table/operators, `index_engine_t::insert_row` and `delete_row`
(components/index/index_engine.cpp), `single_field_index_t` (components/index/single_field_index.cpp)
and `create_index_finish` (services/collection/create_index.cpp), over `Verif.Table.Model`.

Simplifications: as in `Table/OpsModel`; one index on one column, without a disk agent;
`absl::btree_multimap` is the list of its entries in order, a search by key is the partition point
of that list; `lt` is `std::less` of the values of the column, NULL included.
-/
namespace Verif.Table
open Verif

variable {α : Type}

/-- Key and row of an entry, single_field_index.hpp:15 and index.cpp:39. -/
structure IEntry (α : Type) where
  key : Cell α
  row : Nat
deriving DecidableEq, Repr

/-- `storage_.insert`, single_field_index.cpp:32-34: behind the entries with an equal key. -/
def iInsert (lt : Cell α → Cell α → Bool) (e : IEntry α) : List (IEntry α) → List (IEntry α)
  | [] => [e]
  | x :: xs => if lt e.key x.key then e :: x :: xs else x :: iInsert lt e xs

/-- `storage_.erase(storage_.find(key))`, single_field_index.cpp:42-44: the first entry with an equal
key; without one `erase(end())` is undefined. -/
def iErase (lt : Cell α → Cell α → Bool) (k : Cell α) : List (IEntry α) → Res (List (IEntry α))
  | [] => .ub
  | e :: es => if lt e.key k then (iErase lt k es).map' (e :: ·) else if lt k e.key then .ub else .ok es

/-- `lower_bound`, single_field_index.cpp:51-54: the entries below the key. -/
def iBelow (lt : Cell α → Cell α → Bool) (k : Cell α) (es : List (IEntry α)) : List (IEntry α) :=
  es.takeWhile fun e => lt e.key k

/-- `upper_bound`, single_field_index.cpp:56-59: the entries above the key. -/
def iAbove (lt : Cell α → Cell α → Bool) (k : Cell α) (es : List (IEntry α)) : List (IEntry α) :=
  es.dropWhile fun e => !lt k e.key

/-- `equal_range`, single_field_index.cpp:46-49. -/
def iEqual (lt : Cell α → Cell α → Bool) (k : Cell α) (es : List (IEntry α)) : List (IEntry α) :=
  (es.dropWhile fun e => lt e.key k).takeWhile fun e => !lt k e.key

/-- `search_range_by_index`, index_scan.cpp:9-32, the ranges one after the other. -/
def iRanges (lt : Cell α → Cell α → Bool) (op : FOp) (k : Cell α) (es : List (IEntry α)) : List (IEntry α) :=
  match op with
  | .eq => iEqual lt k es
  | .ne => iBelow lt k es ++ iAbove lt k es
  | .gt => iAbove lt k es
  | .lt => iBelow lt k es
  | .gte => iEqual lt k es ++ iAbove lt k es
  | .lte => iBelow lt k es ++ iEqual lt k es
  | .allTrue => []
  | .other => []

/-- The loops of `search_by_index`, index_scan.cpp:45-53 (`break` leaves only the inner loop, but the
check fails again in the next range). -/
def iIds (limit : Int) : List (IEntry α) → Nat → List Nat
  | [], _ => []
  | e :: es, n => if Query.limOk limit n then e.row :: iIds limit es (n + 1) else []

/-- A table with at most one index: its column and its entries. -/
structure ITable (α : Type) where
  tbl : Table α
  idx : Option (Nat × List (IEntry α))

/-- CREATE INDEX: `create_index_finish`, create_index.cpp:32-41, puts the documents of
`document_storage()` into the new index; for a table there are none (collection.hpp:88-101, 105-106). -/
def ITable.createIndex (T : ITable α) (col : Nat) : ITable α := { T with idx := some (col, []) }

/-- `get_value_by_index` for a row of a column, index_engine.cpp:137-153: `column.value(row)`. A row
behind the rows of the chunk is memory no value was written to. -/
def keyAt (c : List (Cell α)) (row : Nat) : Res (Cell α) :=
  match c[row]? with
  | none => .ub
  | some k => .ok k

/-- The calls of `insert_row` in operator_insert.cpp:19-24 for one index on the column with the cells
`c`: `n` rows, from the row `row` on. The row is used in the chunk and as the row of the entry. -/
def insertRows (lt : Cell α → Cell α → Bool) (c : List (Cell α)) : Nat → Nat → List (IEntry α) → Res (List (IEntry α))
  | 0, _, es => .ok es
  | n + 1, row, es => (keyAt c row).bind fun k => insertRows lt c n (row + 1) (iInsert lt ⟨k, row⟩ es)

/-- `index_engine_t::insert_row` for all rows of a chunk, index_engine.cpp:251-265: an index whose
column the chunk does not have stays as it is (`is_match_column`, lines 104-126). -/
def insertIndex (lt : Cell α → Cell α → Bool) (ch : Chunk α) (start : Nat) :
    Option (Nat × List (IEntry α)) → Res (Option (Nat × List (IEntry α)))
  | none => .ok none
  | some (col, es) =>
    match ch.cols[col]? with
    | none => .ok (some (col, es))
    | some c => (insertRows lt c ch.size start es).map' fun es' => some (col, es')

/-- INSERT: `operator_insert::on_execute_impl`, operator_insert.cpp:9-28. The table after it and the ids
it reports (`modified_`); `state.row_start` is the number of rows of the table. -/
def ITable.insertOp (lt : Cell α → Cell α → Bool) (T : ITable α) (ch : Chunk α) : Res (ITable α × List Nat) :=
  (insertIndex lt ch T.tbl.total T.idx).bind fun idx =>
    (T.tbl.append [ch]).map' fun t => (⟨t, idx⟩, (List.range ch.size).map (T.tbl.total + ·))

/-- The output of a scan: the ids `operator_delete` takes from it (operator_delete.cpp:71-77) and its
rows. -/
structure Found (α : Type) where
  ids : List Nat
  rows : List (List (Cell α))

/-- The output of `Table.scanOp`; its columns have one cell for each of its rows. -/
def Found.ofPicked (p : Picked α) : Found α :=
  ⟨p.rowIds, (List.range p.out.ids.length).map fun i => p.out.cols.map fun c => (c[i]?).join⟩

/-- `index_scan::on_execute_impl` without a disk agent, index_scan.cpp:77-103, with `search_by_index`,
lines 34-68: flat vectors, with `row_ids`. -/
def Table.indexScan (lt : Cell α → Cell α → Bool) (t : Table α) (es : List (IEntry α)) (op : FOp) (c : α) (limit : Int) :
    Res (Option (Found α)) :=
  if Query.limOk limit 0 then
    let ids := iIds limit (iRanges lt op (some c) es) 0
    (t.fetch (List.range t.tys.length) ids).map' fun rows => some ⟨ids, rows⟩
  else .ok none

/-- `is_can_index_find_by_predicate`, create_plan_match.cpp:71-75. -/
def FOp.indexable : FOp → Bool
  | .allTrue => false
  | .other => false
  | _ => true

/-- The scan of a statement: `create_plan_match_` for tables, create_plan_match.cpp:82-98. -/
def ITable.find (lt : Cell α → Cell α → Bool) (cmp : α → α → Ordering) (T : ITable α) (e : Option (Ex α)) (limit : Int) :
    Res (Option (Found α)) :=
  match T.idx, e with
  | some (col, es), some (.cmp op c k) =>
    if op.indexable = true ∧ c = col then T.tbl.indexScan lt es op k limit
    else (T.tbl.scanOp cmp e limit).map' fun o => o.map Found.ofPicked
  | _, _ => (T.tbl.scanOp cmp e limit).map' fun o => o.map Found.ofPicked

/-- The calls of `delete_row` in operator_delete.cpp:81-85 for one index, index_engine.cpp:267-281. -/
def eraseRows (lt : Cell α → Cell α → Bool) (col : Nat) : List (List (Cell α)) → List (IEntry α) → Res (List (IEntry α))
  | [], es => .ok es
  | r :: rs, es => (keyAt r col).bind fun k => (iErase lt k es).bind fun es' => eraseRows lt col rs es'

/-- The same for the table: nothing to do without an index. -/
def eraseIndex (lt : Cell α → Cell α → Bool) (rows : List (List (Cell α))) :
    Option (Nat × List (IEntry α)) → Res (Option (Nat × List (IEntry α)))
  | none => .ok none
  | some (col, es) => (eraseRows lt col rows es).map' fun es' => some (col, es')

/-- DELETE without USING: operator_delete.cpp:56-87 over the scan. The table after it and the rows
reported as deleted. -/
def ITable.deleteOp (lt : Cell α → Cell α → Bool) (cmp : α → α → Ordering) (T : ITable α) (e : Option (Ex α)) (limit : Int) :
    Res (ITable α × List Nat) :=
  (T.find lt cmp e limit).bind fun o =>
    match o with
    | none => .ok (T, [])
    | some f =>
      (T.tbl.delete (f.ids.take f.rows.length)).bind fun r =>
        (eraseIndex lt f.rows T.idx).map' fun idx => (⟨r.1, idx⟩, f.ids.take f.rows.length)

/-! ## What is expected -/

/-- `lt` and `cmp` order the values in `P` in the same way, and that is an order of classes of equal
values. -/
structure Orders (lt : Cell α → Cell α → Bool) (cmp : α → α → Ordering) (P : α → Prop) : Prop where
  same : ∀ a b, P a → P b → lt (some a) (some b) = decide (cmp a b = .lt)
  swap : ∀ a b, P a → P b → (cmp a b = .gt ↔ cmp b a = .lt)
  cotrans : ∀ a b c, P a → P b → P c → cmp a b = .lt → cmp a c = .lt ∨ cmp c b = .lt

/-- The output shows these rows of the table, in this order, with all their cells. -/
def FoundIs (s : Ideal α) (rows : List Nat) : Option (Found α) → Prop
  | none => rows = []
  | some f => f.ids = rows ∧ f.rows = rows.map s.row

/-- The rows that satisfy `column op c`. -/
def Ideal.matching (cmp : α → α → Ordering) (s : Ideal α) (op : FOp) (col : Nat) (c : α) : List Nat :=
  s.live.filter fun i => (Ex.cmp op col c).holds cmp (s.row i)

/-- `rows` is an answer to a statement with this comparison and this limit: rows that satisfy it, none
twice, all of them or as many as the limit allows. -/
structure Answer (cmp : α → α → Ordering) (s : Ideal α) (op : FOp) (col : Nat) (c : α) (limit : Int) (rows : List Nat) : Prop where
  nodup : rows.Nodup
  sub : ∀ i ∈ rows, i ∈ s.matching cmp op col c
  all : rows.length = if limit = -1 then (s.matching cmp op col c).length else min limit.toNat (s.matching cmp op col c).length

/-- A table with an index on a column, as statements leave it. Every statement returned. -/
inductive Stmts (lt : Cell α → Cell α → Bool) (cmp : α → α → Ordering) (tys : List (ColTy α)) (col : Nat) : ITable α → Ideal α → Prop
  /-- CREATE TABLE and INSERTs before the index is created -/
  | create {h t s} : After tys h t s → Stmts lt cmp tys col ((ITable.mk t none).createIndex col) s
  /-- INSERT -/
  | insert {T s ch T' ids} : Stmts lt cmp tys col T s → ch.For tys.length → T.insertOp lt ch = .ok (T', ids) →
      Stmts lt cmp tys col T' (s.append ch)
  /-- DELETE with a condition that removed the right rows of the table -/
  | delete {T s T'} {e : Option (Ex α)} {ids} : Stmts lt cmp tys col T s → T.deleteOp lt cmp e (-1) = .ok (T', ids) →
      ids.Perm (s.chosen cmp e (-1)) → Stmts lt cmp tys col T' (s.delete ids)

/-- A table whose index was created before its rows came with one INSERT, and of which rows were then
deleted with comparisons of the column of the index. -/
inductive Loaded (lt : Cell α → Cell α → Bool) (cmp : α → α → Ordering) (tys : List (ColTy α)) (col : Nat) : ITable α → Ideal α → Prop
  | load {ch T ids} : ch.For tys.length → ((ITable.mk (Table.create tys) none).createIndex col).insertOp lt ch = .ok (T, ids) →
      Loaded lt cmp tys col T ((Ideal.empty tys.length).append ch)
  | delete {T s op c limit T' ids} : Loaded lt cmp tys col T s → op.indexable = true → -1 ≤ limit →
      T.deleteOp lt cmp (some (.cmp op col c)) limit = .ok (T', ids) → Loaded lt cmp tys col T' (s.delete ids)

end Verif.Table
