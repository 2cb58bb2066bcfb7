import Verif.Mvcc.Model
import Verif.SegLookup.Model
/-!
Model of the columnar tables, components/table: columns made of segments, their null columns, their
updates, row groups with delete stamps, and the table on top (`data_table_t` over `collection_t`).

Simplifications, valid for the whole file.
* The elements of a column are values of a type `α`; a column knows what is stored in place of a
  NULL (`Ty.zero`) and how many more elements fit into a segment (`Ty.room`). What is read from a
  segment is what was written to it; for texts below 4096 bytes that is proved in `Verif.TextSeg`.
  All columns have one element type. Struct, list and array columns are left out.
* A block of memory is the list of the elements written to it. Pinning, eviction and allocation are
  left out: all segments of these tables stay in memory.
* Every call of a scan gets a new result chunk, which is read before the next call. What happens
  when one chunk is used for several calls is modelled in `Verif.Table.Reuse`.
* Null masks are lists of booleans; the word arithmetic behind them is the subject of
  `Verif.Validity`.
* Row ids are below `MAX_ROW_ID`, so the split into local and global rows in `data_table_t::update`
  and `data_table_t::delete_rows` has one part.
* Locks are left out: each call is one step.
* `assert` is compiled out; where a violated assertion leads to an access outside of an array or
  through a null pointer the outcome is `ub`.
-/
namespace Verif.Table
open Verif
open Verif.Mvcc (CAP Mgr Txn)

variable {α : Type}

/-- What `column_data_t` knows of the type of its elements: the value stored for NULL
(column_segment.cpp:290-292, 395-402) and the number of elements of a batch that still fit into a
segment (column_segment.cpp:330-331 for fixed sizes, 345-347 for null flags, 385-417 for strings). -/
structure Ty (α : Type) where
  zero : α
  room : List α → List α → Nat

/-- Elements of a fixed size in segments of `cap` elements, column_segment.cpp:330-331; also null
flags, column_segment.cpp:345-347. -/
def fixedTy (zero : α) (cap : Nat) : Ty α := ⟨zero, fun stored batch => min batch.length (cap - stored.length)⟩

/-- `column_segment_t`: first row and elements (`count` is their number). -/
structure Seg (α : Type) where
  start : Nat
  cells : List α

/-- `column_data_t`, column_data.hpp: `upd = none` is the null pointer `updates_`, otherwise the
list is `root_->info`: per vector of 1024 rows the sorted positions with their new values. -/
structure Col (α : Type) where
  ty : Ty α
  start : Nat
  count : Nat
  segs : List (Seg α)
  upd : Option (List (Option (List (Nat × α))))

/-- The entries the search in `data_` sees (segment_tree.hpp:186-212). -/
def Col.nodes (c : Col α) : List SegLookup.Seg := c.segs.map fun s => ⟨s.start, s.cells.length⟩

/-- `data_.get_segment(row)`, segment_tree.hpp:125-131. -/
def Col.segOf (c : Col α) (row : Nat) : Res (Seg α) :=
  match SegLookup.segmentIndex c.nodes row with
  | .ok i => match c.segs[i]? with
    | some s => .ok s
    | none => .ub
  | .throws => .throws
  | .ub => .ub
  | .diverges => .diverges

/-- A column without rows, column_data.cpp:15-28. -/
def Col.empty (ty : Ty α) (start : Nat) : Col α := ⟨ty, start, 0, [], none⟩

/-- `column_data_t::initialize_append`, column_data.cpp:198-206. -/
def Col.initAppend (c : Col α) : Col α :=
  if c.segs.isEmpty then { c with segs := [⟨c.start, []⟩] } else c

/-- The loop of `column_data_t::append_data`, column_data.cpp:218-232; `pre` are the segments before
the current one. Each round but the first writes at least one element if a new segment has room for
one, so `batch.length + 2` rounds suffice; without room the loop does not end. -/
def appendLoop (ty : Ty α) : Nat → List (Seg α) → Seg α → List α → Res (List (Seg α))
  | 0, _, _, _ => .diverges
  | fuel + 1, pre, cur, batch =>
    let n := ty.room cur.cells batch
    let cur' : Seg α := ⟨cur.start, cur.cells ++ batch.take n⟩
    if n = batch.length then .ok (pre ++ [cur'])
    else appendLoop ty fuel (pre ++ [cur']) ⟨cur'.start + cur'.cells.length, []⟩ (batch.drop n)

/-- `column_data_t::append_data`, column_data.cpp:214-233: `state.current` is the last segment. -/
def Col.append (c : Col α) (batch : List α) : Res (Col α) :=
  match c.segs.getLast? with
  | none => .ub
  | some cur =>
    match appendLoop c.ty (batch.length + 2) c.segs.dropLast cur batch with
    | .ok segs => .ok { c with count := c.count + batch.length, segs := segs }
    | .throws => .throws
    | .ub => .ub
    | .diverges => .diverges

/-- `column_scan_state`: the current segment (its index) and `row_index`. -/
structure Scan where
  cur : Nat
  row : Nat

/-- `column_data_t::initialize_scan`, column_data.cpp:73-80. -/
def Col.initScan (c : Col α) : Scan := ⟨0, match c.segs with
  | [] => 0
  | s :: _ => s.start⟩

/-- `column_data_t::vector_count`, column_data.cpp:498-501; the subtraction wraps. -/
def Col.vectorCount (c : Col α) (v : Nat) : Nat :=
  if v * CAP ≤ c.count then min CAP (c.count - v * CAP) else CAP

/-- `column_data_t::get_vector_scan_type`, column_data.cpp:58-71, for a new (flat) result: `true` is
`SCAN_FLAT_VECTOR`. -/
def Col.flat (c : Col α) (st : Scan) (n : Nat) : Res Bool :=
  if c.upd.isSome then .ok true
  else match c.segs[st.cur]? with
    | none => .ub
    | some s => .ok (decide (s.start + s.cells.length - st.row < n))

/-- The loop of `column_data_t::scan_vector`, column_data.cpp:404-435, over the segments from the
current one on. The row-wise `fetch_row` of lines 410-416 writes the values which the scan in line
417 writes again. -/
def scanLoop : List (Seg α) → Nat → Nat → Nat → Res (List α × Scan)
  | [], cur, row, n => if n = 0 then .ok ([], ⟨cur, row⟩) else .ub
  | s :: rest, cur, row, n =>
    if n = 0 then .ok ([], ⟨cur, row⟩)
    else if row < s.start ∨ s.start + s.cells.length < row then .ub
    else
      let k := min n (s.start + s.cells.length - row)
      let part := (s.cells.drop (row - s.start)).take k
      if n - k = 0 then .ok (part, ⟨cur, row + k⟩)
      else if rest.isEmpty then .ok (part, ⟨cur, row + k⟩)
      else (scanLoop rest (cur + 1) (row + k) (n - k)).map' fun r => (part ++ r.1, r.2)

/-- The new values written over a scanned vector, update_segment.hpp:720-731 and
update_segment.cpp:107-113. A position behind the scanned rows lies in the unread rest of the
result. -/
def overlay (l : List α) (ups : List (Nat × α)) : List α := ups.foldl (fun l p => l.set p.1 p.2) l

/-- `update_segment_t::update_node`, update_segment.cpp:407-415. -/
def updNode (upd : Option (List (Option (List (Nat × α))))) (v : Nat) : Option (List (Nat × α)) :=
  match upd with
  | none => none
  | some info => (info[v]?).join

/-- `column_data_t::fetch_updates`, column_data.cpp:458-476 with update_segment.cpp:233-242. -/
def Col.fetchUpdates (c : Col α) (v : Nat) (l : List α) : List α :=
  match updNode c.upd v with
  | none => l
  | some ups => overlay l ups

/-- `column_data_t::scan_vector` for one vector, column_data.cpp:440-451. -/
def Col.scan (c : Col α) (v : Nat) (st : Scan) (n : Nat) (flat : Bool) : Res (List α × Scan) :=
  (scanLoop (c.segs.drop st.cur) st.cur st.row n).map' fun r => (if flat then c.fetchUpdates v r.1 else r.1, r.2)

/-- `std::lower_bound` on the sorted positions, update_segment.hpp:878-881, 891-895. -/
def updAt (ups : List (Nat × α)) (row : Nat) : Option α :=
  match ups.find? (fun p => decide (row ≤ p.1)) with
  | some p => if p.1 = row then some p.2 else none
  | none => none

/-- The element of a segment at a row. -/
def Seg.at (s : Seg α) (row : Nat) : Res α :=
  match s.cells[row - s.start]? with
  | some x => .ok x
  | none => .ub

/-- The value `update_segment_t::fetch_row` writes, if any, update_segment.cpp:362-371 with
update_segment.hpp:869-883. -/
def Col.updRow (c : Col α) (row : Nat) : Option α :=
  match updNode c.upd ((row - c.start) / CAP) with
  | none => none
  | some ups => updAt ups ((row - c.start) - (row - c.start) / CAP * CAP)

/-- `column_data_t::fetch_row`, column_data.cpp:272-279. -/
def Col.fetchRow (c : Col α) (row : Nat) : Res α :=
  (c.segOf row).bind fun s => (s.at row).map' fun x => (c.updRow row).getD x

/-- `update_segment_t::check_row`, update_segment.cpp:373-382 with update_segment.hpp:885-898. -/
def Col.checkUpd (c : Col α) (row : Nat) (p : α → Bool) : Bool :=
  match updNode c.upd ((row - c.start) / CAP) with
  | none => true
  | some ups =>
    match updAt ups ((row - c.start) - (row - c.start) / CAP * CAP) with
    | some x => p x
    | none => false

/-- `column_data_t::check_predicate`, column_data.cpp:253-260: the row id is handed to `has_updates`,
which takes the index of a vector. -/
def Col.check (c : Col α) (row : Nat) (p : α → Bool) : Res Bool :=
  (c.segOf row).bind fun s =>
    match updNode c.upd row with
    | some _ => .ok (c.checkUpd row p)
    | none => (s.at row).map' p

/-- Insertion into a list sorted by position, before equal positions. -/
def insertPos (p : Nat × α) : List (Nat × α) → List (Nat × α)
  | [] => [p]
  | q :: rest => if p.1 ≤ q.1 then p :: q :: rest else q :: insertPos p rest

/-- Strictly ascending positions, update_segment.cpp:18-29. -/
def ascending : List (Nat × α) → Bool
  | [] => true
  | p :: rest => (match rest with
    | [] => true
    | q :: _ => decide (p.1 < q.1)) && ascending rest

/-- The first entry of each run of equal positions, update_segment.cpp:37-45. -/
def firsts : List (Nat × α) → List (Nat × α)
  | [] => []
  | p :: rest =>
    match firsts rest with
    | [] => [p]
    | q :: qs => if p.1 = q.1 then p :: qs else p :: q :: qs

/-- `sort_indexing_vector`, update_segment.cpp:12-50. `std::sort` may order equal positions in any
way; here they keep their order. -/
def sortPos (l : List (Nat × α)) : List (Nat × α) :=
  if ascending l then l else firsts (l.foldr insertPos [])

/-- The merge of new values into the values of earlier updates, update_segment.hpp:811-856. When
new positions are left after the last old one the loop of lines 844-848 moves its own bound
(`count++`) and never ends; it writes behind the 1024 elements of `result_values`. The first half,
lines 772-809, fills an undo entry nothing refers to. Here the step for one new value `a`; `rest`
merges the new values after it. -/
def mergeOne (a : Nat × α) (rest : List (Nat × α) → Res (List (Nat × α))) :
    List (Nat × α) → Res (List (Nat × α))
  | [] => .ub
  | b :: bs =>
    if a.1 = b.1 then (rest bs).map' (a :: ·)
    else if a.1 < b.1 then (rest (b :: bs)).map' (a :: ·)
    else (mergeOne a rest bs).map' (b :: ·)

/-- The whole merge, update_segment.hpp:811-856: new values, then the values of earlier updates. -/
def mergeUpd : List (Nat × α) → List (Nat × α) → Res (List (Nat × α))
  | [] => fun base => .ok base
  | a :: as => mergeOne a (mergeUpd as)

/-- `update_segment_t::initialize_update_info(vector_idx)`, update_segment.cpp:417-428. -/
def fillInfo (info : List (Option (List (Nat × α)))) (v : Nat) : List (Option (List (Nat × α))) :=
  if v < info.length then info else info ++ List.replicate (v + 1 - info.length) none

/-- `update_segment_t::update`, update_segment.cpp:284-360, for sorted rows `ups` (ids with values). -/
def Col.applyUpd (c : Col α) (ups : List (Nat × α)) : Res (Col α) :=
  match ups with
  | [] => .ok c
  | first :: _ =>
    let v := (first.1 - c.start) / CAP
    let off := c.start + v * CAP
    let pos := ups.map fun p => (p.1 - off, p.2)
    let info := fillInfo (c.upd.getD []) v
    match (info[v]?).join with
    | some base => (mergeUpd pos base).map' fun l => { c with upd := some (info.set v (some l)) }
    | none => .ok { c with upd := some (info.set v (some pos)) }

/-- `column_data_t::update`, column_data.cpp:281-291 with `fetch`, 262-270: the first row must
exist. -/
def Col.update (c : Col α) (rows : List (Nat × α)) : Res (Col α) :=
  match rows with
  | [] => .ub
  | first :: _ =>
    (c.segOf (c.start + (first.1 - c.start) / CAP * CAP)).bind fun _ => c.applyUpd (sortPos rows)

/-! ## A column with its null flags -/

/-- `standard_column_data_t`, standard_column_data.hpp. -/
structure Std (α : Type) where
  data : Col α
  valid : Col Bool

/-- A cell as the user sees it: `none` is NULL. -/
abbrev Cell (α : Type) := Option α

/-- The null flags have segments of `capV` bits. -/
structure ColTy (α : Type) where
  ty : Ty α
  capV : Nat

/-- A column without rows, standard_column_data.cpp:5-12. -/
def Std.empty (ty : ColTy α) (start : Nat) : Std α :=
  ⟨Col.empty ty.ty start, Col.empty (fixedTy true ty.capV) start⟩

/-- `standard_column_data_t::initialize_append`, standard_column_data.cpp:73-78. -/
def Std.initAppend (s : Std α) : Std α := ⟨s.data.initAppend, s.valid.initAppend⟩

/-- `standard_column_data_t::append_data`, standard_column_data.cpp:80-85; a NULL is stored as zero,
column_segment.cpp:283-293. -/
def Std.append (s : Std α) (batch : List (Cell α)) : Res (Std α) :=
  (s.data.append (batch.map fun x => x.getD s.data.ty.zero)).bind fun d =>
    (s.valid.append (batch.map Option.isSome)).map' fun v => ⟨d, v⟩

/-- Values and null flags read together. -/
def cells (vals : List α) (flags : List Bool) : List (Cell α) :=
  List.zipWith (fun x b => if b then some x else none) vals flags

/-- `standard_column_data_t::scan`, standard_column_data.cpp:46-54, with the scan type of 19-30, for
vector `v`; the number of rows is column_data.cpp:91-94. -/
def Std.scan (s : Std α) (v : Nat) (st : Scan × Scan) : Res (List (Cell α) × (Scan × Scan)) :=
  let n := s.data.vectorCount v
  (s.data.flat st.1 n).bind fun fd =>
  (if fd then Res.ok true else s.valid.flat st.2 n).bind fun f =>
  (s.data.scan v st.1 n f).bind fun d =>
  (s.valid.flat st.2 n).bind fun fv =>
  (s.valid.scan v st.2 n fv).map' fun w => (cells d.1 w.1, (d.2, w.2))

/-- `standard_column_data_t::fetch_row`, standard_column_data.cpp:122-132. -/
def Std.fetchRow (s : Std α) (row : Nat) : Res (Cell α) :=
  (s.valid.fetchRow row).bind fun b => (s.data.fetchRow row).map' fun x => if b then some x else none

/-- `standard_column_data_t::update`, standard_column_data.cpp:102-108. -/
def Std.update (s : Std α) (rows : List (Nat × Cell α)) : Res (Std α) :=
  (s.data.update (rows.map fun p => (p.1, p.2.getD s.data.ty.zero))).bind fun d =>
    (s.valid.update (rows.map fun p => (p.1, p.2.isSome))).map' fun v => ⟨d, v⟩

/-! ## Row groups -/

/-- `row_group_t`, row_group.hpp: `vers = none` is the null pointer `version_info_`. -/
structure RowGroup (α : Type) where
  start : Nat
  count : Nat
  cols : List (Std α)
  vers : Option Mgr
  version : Nat

/-- A chunk handed to the table: `size` rows, one list of cells per column. -/
structure Chunk (α : Type) where
  size : Nat
  cols : List (List (Cell α))

/-- `data_chunk_t::slice(resource, offset, count)`, data_chunk.cpp:213-220. -/
def Chunk.drop (ch : Chunk α) (n : Nat) : Chunk α := ⟨ch.size - n, ch.cols.map (·.drop n)⟩

/-- `row_group_t::initialize_empty`, row_group.cpp:62-69. -/
def RowGroup.empty (tys : List (ColTy α)) (start : Nat) : RowGroup α :=
  ⟨start, 0, tys.map fun ty => Std.empty ty start, none, 0⟩

/-- `row_group_t::initialize_append`, row_group.cpp:387-395. -/
def RowGroup.initAppend (g : RowGroup α) : RowGroup α := { g with cols := g.cols.map Std.initAppend }

/-- The loop over the columns in `row_group_t::append`, row_group.cpp:399-404. -/
def appendCols : List (Std α) → List (List (Cell α)) → Nat → Res (List (Std α))
  | [], _, _ => .ok []
  | _ :: _, [], _ => .ub
  | s :: ss, b :: bs, n => (s.append (b.take n)).bind fun s' => (appendCols ss bs n).map' fun ss' => s' :: ss'

/-- `row_group_t::append`, row_group.cpp:397-406. -/
def RowGroup.append (g : RowGroup α) (ch : Chunk α) (n : Nat) : Res (RowGroup α) :=
  (appendCols g.cols ch.cols n).map' fun cols => { g with cols := cols }

/-- `row_group_t::append_version_info`, row_group.cpp:378-385. -/
def RowGroup.bump (g : RowGroup α) (rgSize n : Nat) : RowGroup α := { g with count := min (g.count + n) rgSize }

/-- `row_group_t::indexing_vector`, row_group.cpp:519-526. -/
def RowGroup.select (g : RowGroup α) (v n : Nat) : Res Mvcc.Sel :=
  match g.vers with
  | none => .ok ⟨n, []⟩
  | some m => m.select ⟨g.version, g.version⟩ v n

/-! ### Filters -/

/-- The comparisons of a `constant_filter_t`. -/
inductive FOp where
  | eq | ne | lt | lte | gt | gte | allTrue | other
  deriving DecidableEq, Repr

/-- `constant_filter_t::compare`, column_state.cpp:11-44, on the outcome of the comparison. -/
def FOp.holds : FOp → Ordering → Bool
  | .eq, .eq | .gte, .eq | .lte, .eq | .allTrue, .eq => true
  | .ne, .lt | .lt, .lt | .lte, .lt | .allTrue, .lt => true
  | .ne, .gt | .gt, .gt | .gte, .gt | .allTrue, .gt => true
  | _, _ => false

/-- `table_filter_t` and its kinds, column_state.hpp. `null` is a null child pointer. -/
inductive Flt (α : Type) where
  | const (col : Nat) (op : FOp) (c : α)
  | and (l : List (Flt α))
  | or (l : List (Flt α))
  | invalid
  | null

mutual
/-- `row_group_t::check_predicate`, row_group.cpp:173-201. -/
def RowGroup.check (cmp : α → α → Ordering) (g : RowGroup α) (row : Nat) : Flt α → Res Bool
  | .const col op c =>
    match g.cols[col]? with
    | none => .ub
    | some s => s.data.check row fun x => op.holds (cmp x c)
  | .and l => RowGroup.checkAnd cmp g row l
  | .or l => RowGroup.checkOr cmp g row l
  | .invalid => .throws
  | .null => .ub
/-- The loop of lines 186-191. -/
def RowGroup.checkAnd (cmp : α → α → Ordering) (g : RowGroup α) (row : Nat) : List (Flt α) → Res Bool
  | [] => .ok true
  | f :: fs => (RowGroup.check cmp g row f).bind fun b => if b then RowGroup.checkAnd cmp g row fs else .ok false
/-- The loop of lines 177-182. -/
def RowGroup.checkOr (cmp : α → α → Ordering) (g : RowGroup α) (row : Nat) : List (Flt α) → Res Bool
  | [] => .ok false
  | f :: fs => (RowGroup.check cmp g row f).bind fun b => if b then .ok true else RowGroup.checkOr cmp g row fs
end

/-- `row_group_t::filter_indexing`, row_group.cpp:205-218: the predicate is asked for the position in
the vector. -/
def RowGroup.filter (cmp : α → α → Ordering) (g : RowGroup α) (f : Flt α) : List Nat → Res (List Nat)
  | [] => .ok []
  | p :: ps => (g.check cmp p f).bind fun b =>
      (RowGroup.filter cmp g f ps).map' fun r => if b then p :: r else r

/-! ### Scanning a row group -/

/-- A chunk returned by a scan: the ids of the rows (what a row id column shows, row_group.cpp:259,
304-305) and one list of cells per requested column. -/
structure Out (α : Type) where
  ids : List Nat
  cols : List (List (Cell α))

/-- `collection_scan_state`, table_state.hpp: the row group (its index), `vector_index`,
`max_row_group_row`, the states of the columns, `max_row`. -/
structure ScanSt where
  grp : Option Nat
  vec : Nat
  maxRow : Nat
  cols : List (Scan × Scan)
  endRow : Nat

/-- The loops of row_group.cpp:102-110. -/
def initCols (g : RowGroup α) : List Nat → Res (List (Scan × Scan))
  | [] => .ok []
  | j :: js =>
    match g.cols[j]? with
    | none => .ub
    | some s => (initCols g js).map' fun r => (s.data.initScan, s.valid.initScan) :: r

/-- `row_group_t::initialize_scan`, row_group.cpp:93-112, for the group with index `gi`; the boolean
is its result. -/
def RowGroup.initScan (g : RowGroup α) (gi : Nat) (refs : List Nat) (st : ScanSt) : Res (ScanSt × Bool) :=
  let m := if st.endRow < g.start then 0 else min g.count (st.endRow - g.start)
  if m = 0 then .ok ({ st with grp := some gi, vec := 0, maxRow := 0 }, false)
  else (initCols g refs).map' fun cs => ({ st with grp := some gi, vec := 0, maxRow := m, cols := cs }, true)

/-- The loops over the requested columns, row_group.cpp:255-271 and 297-324. -/
def scanCols (g : RowGroup α) (v : Nat) : List Nat → List (Scan × Scan) →
    Res (List (List (Cell α)) × List (Scan × Scan))
  | [], _ => .ok ([], [])
  | _ :: _, [] => .ub
  | j :: js, st :: sts =>
    match g.cols[j]? with
    | none => .ub
    | some s => (s.scan v st).bind fun r =>
        (scanCols g v js sts).map' fun rest => (r.1 :: rest.1, r.2 :: rest.2)

/-- The rows of a scanned vector at the given positions. -/
def pick {β : Type} (l : List β) : List Nat → Res (List β)
  | [] => .ok []
  | p :: ps =>
    match l[p]? with
    | none => .ub
    | some x => (pick l ps).map' fun r => x :: r

/-- `pick` for every column. -/
def pickAll {β : Type} (ps : List Nat) : List (List β) → Res (List (List β))
  | [] => .ok []
  | l :: ls => (pick l ps).bind fun x => (pickAll ps ls).map' fun r => x :: r

/-- The positions of a vector that a scan returns, row_group.cpp:254 and 273-283. -/
def RowGroup.positions (cmp : α → α → Ordering) (g : RowGroup α) (flt : Option (Flt α)) (s : Mvcc.Sel) (n : Nat) :
    Res (List Nat) :=
  match flt with
  | none => .ok (s.rows n)
  | some f => g.filter cmp f (s.rows n)

/-- `row_group_t::templated_scan<REGULAR>`, row_group.cpp:220-333. Skipping a vector
(`next_vector`, 161-171, and 286-293) does not move the column states (column_state.cpp:106-110). -/
def RowGroup.scan (cmp : α → α → Ordering) (g : RowGroup α) (refs : List Nat) (flt : Option (Flt α)) :
    Nat → ScanSt → Res (ScanSt × Out α)
  | 0, _ => .diverges
  | fuel + 1, st =>
    if st.maxRow ≤ st.vec * CAP then .ok (st, ⟨[], refs.map fun _ => []⟩)
    else
      let cur := st.vec * CAP
      let n := min CAP (st.maxRow - cur)
      (g.select st.vec n).bind fun s =>
        if s.count = 0 then RowGroup.scan cmp g refs flt fuel { st with vec := st.vec + 1 }
        else (g.positions cmp flt s n).bind fun ps =>
          if ps.isEmpty then RowGroup.scan cmp g refs flt fuel { st with vec := st.vec + 1 }
          else (scanCols g st.vec refs st.cols).bind fun r =>
            (pickAll ps r.1).map' fun cols =>
              ({ st with vec := st.vec + 1, cols := r.2 }, ⟨ps.map fun p => g.start + cur + p, cols⟩)

/-- Rounds of that loop: one per vector and one to see the end. -/
def rounds (n : Nat) : Nat := n / CAP + 2

/-! ## Tables -/

/-- `data_table_t` over its `collection_t` (`row_start_` is 0, data_table.cpp:19): the types of the
columns, `row_group_size_`, `total_rows_` and the row groups. -/
structure Table (α : Type) where
  tys : List (ColTy α)
  rgSize : Nat
  total : Nat
  groups : List (RowGroup α)

/-- A new `data_table_t`, data_table.cpp:11-20; row groups have 1024 rows, collection.hpp:34. -/
def Table.create (tys : List (ColTy α)) : Table α := ⟨tys, CAP, 0, []⟩

/-- The entries the search in `row_groups_` sees. -/
def Table.nodes (t : Table α) : List SegLookup.Seg := t.groups.map fun g => ⟨g.start, g.count⟩

/-- `row_groups_->get_segment(row)`, segment_tree.hpp:125-131, as an index. -/
def Table.groupOf (t : Table α) (row : Nat) : Res Nat := SegLookup.segmentIndex t.nodes row

/-! ### Appending -/

/-- `collection_t::initialize_append`, collection.cpp:163-175: the row groups before the last one and
the last one, prepared. -/
def Table.initAppend (t : Table α) : List (RowGroup α) × RowGroup α :=
  match t.groups.getLast? with
  | none => ([], (RowGroup.empty t.tys 0).initAppend)
  | some g => (t.groups.dropLast, g.initAppend)

/-- The loop of `collection_t::append`, collection.cpp:185-209. `offset` is
`append_state.offset_in_row_group`. Each round but the first writes `rgSize` rows or ends. -/
def groupLoop (tys : List (ColTy α)) (rgSize : Nat) : Nat → List (RowGroup α) → RowGroup α → Nat → Chunk α →
    Res (List (RowGroup α) × RowGroup α × Nat)
  | 0, _, _, _, _ => .diverges
  | fuel + 1, pre, cur, offset, ch =>
    let n := min ch.size (rgSize - offset)
    (if n = 0 then Res.ok cur else cur.append ch n).bind fun cur' =>
      if ch.size - n = 0 then .ok (pre, cur', offset + n)
      else groupLoop tys rgSize fuel (pre ++ [cur']) (RowGroup.empty tys (cur'.start + (offset + n))).initAppend 0
        (ch.drop n)

/-- All `append` calls between `initialize_append` and `finalize_append`. -/
def appendChunks (tys : List (ColTy α)) (rgSize : Nat) : List (Chunk α) → List (RowGroup α) → RowGroup α → Nat →
    Res (List (RowGroup α))
  | [], pre, cur, _ => .ok (pre ++ [cur])
  | ch :: chs, pre, cur, offset =>
    (groupLoop tys rgSize (ch.size + 2) pre cur offset ch).bind fun r => appendChunks tys rgSize chs r.1 r.2.1 r.2.2

/-- The loop of `collection_t::finalize_append`, collection.cpp:214-222, from the first row group of
the append on; running out of row groups is an access through a null pointer. -/
def finalize (rgSize : Nat) : Nat → List (RowGroup α) → Res (List (RowGroup α))
  | 0, gs => .ok gs
  | _ + 1, [] => .ub
  | r + 1, g :: gs =>
    let n := min (r + 1) (rgSize - g.count)
    (finalize rgSize (r + 1 - n) gs).map' fun gs' => g.bump rgSize n :: gs'
  termination_by structural _ gs => gs

/-- One append: `append_lock`, `initialize_append`, `append` for each chunk, `finalize_append`
(data_table.cpp:135-156, collection.cpp:163-227). -/
def Table.append (t : Table α) (chs : List (Chunk α)) : Res (Table α) :=
  let i := t.initAppend
  (appendChunks t.tys t.rgSize chs i.1 i.2 i.2.count).bind fun gs =>
    let total := (chs.map Chunk.size).sum
    (finalize t.rgSize total (gs.drop i.1.length)).map' fun gs' =>
      { t with total := t.total + total, groups := gs.take i.1.length ++ gs' }

/-! ### Deleting -/

/-- The rows of one vector collected by `version_delete_state::delete_row`, row_group.cpp:569-580:
consecutive rows of the same vector, as positions in it. -/
def runs : List Nat → List (Nat × List Nat)
  | [] => []
  | r :: rs =>
    match runs rs with
    | [] => [(r / CAP, [r % CAP])]
    | (v, l) :: rest => if v = r / CAP then (v, (r % CAP) :: l) :: rest else (r / CAP, [r % CAP]) :: (v, l) :: rest

/-- `version_delete_state::flush`, row_group.cpp:582-589 with 494-496; the buffer `rows` holds 1024
positions. -/
def RowGroup.flush (g : RowGroup α) (v : Nat) (rows : List Nat) : Res (RowGroup α × Nat) :=
  if CAP < rows.length then .ub
  else
    let out := (g.vers.getD []).deleteRows v (g.version + 1) rows
    out.2.map' fun l => ({ g with vers := some out.1, version := g.version + 1 }, l.length)

/-- All flushes of one call. -/
def flushAll : RowGroup α → List (Nat × List Nat) → Res (RowGroup α × Nat)
  | g, [] => .ok (g, 0)
  | g, (v, rows) :: rest =>
    (g.flush v rows).bind fun r => (flushAll r.1 rest).map' fun r' => (r'.1, r.2 + r'.2)

/-- `row_group_t::delete_rows`, row_group.cpp:482-492. -/
def RowGroup.deleteRows (g : RowGroup α) (ids : List Nat) : Res (RowGroup α × Nat) :=
  flushAll g (runs (ids.map (· - g.start)))

/-- `collection_t::delete_rows`, collection.cpp:245-263, with `data_table_t::delete_rows`,
data_table.cpp:225-252. -/
def Table.deleteLoop : Nat → Table α → List Nat → Res (Table α × Nat)
  | 0, _, _ => .diverges
  | _ + 1, t, [] => .ok (t, 0)
  | fuel + 1, t, id :: ids =>
    (t.groupOf id).bind fun gi =>
      match t.groups[gi]? with
      | none => .ub
      | some g =>
        let inside := fun i => decide (g.start ≤ i ∧ i < g.start + g.count)
        (g.deleteRows (id :: ids.takeWhile inside)).bind fun r =>
          (Table.deleteLoop fuel { t with groups := t.groups.set gi r.1 } (ids.dropWhile inside)).map' fun r' =>
            (r'.1, r.2 + r'.2)

/-- `data_table_t::delete_rows`: the table after it and the number of deleted rows. -/
def Table.delete (t : Table α) (ids : List Nat) : Res (Table α × Nat) := t.deleteLoop (ids.length + 1) ids

/-! ### Updating -/

/-- The loop over the columns in `row_group_t::update`, row_group.cpp:413-425 (all columns,
data_table.cpp:289-293). -/
def updateCols (ids : List Nat) : List (Std α) → List (List (Cell α)) → Res (List (Std α))
  | [], _ => .ok []
  | _ :: _, [] => .ub
  | s :: ss, b :: bs =>
    (s.update (ids.zip b)).bind fun s' => (updateCols ids ss bs).map' fun ss' => s' :: ss'

/-- `row_group_t::update`, row_group.cpp:408-426, on the part of the chunk that belongs to `ids`. -/
def RowGroup.update (g : RowGroup α) (ids : List Nat) (cols : List (List (Cell α))) : Res (RowGroup α) :=
  (updateCols ids g.cols cols).map' fun cs => { g with cols := cs }

/-- `collection_t::update`, collection.cpp:265-286: runs of ids in the same vector. -/
def Table.updateLoop : Nat → Table α → List Nat → List (List (Cell α)) → Res (Table α)
  | 0, _, _, _ => .diverges
  | _ + 1, t, [], _ => .ok t
  | fuel + 1, t, id :: ids, cols =>
    (t.groupOf id).bind fun gi =>
      match t.groups[gi]? with
      | none => .ub
      | some g =>
        let base := g.start + (id - g.start) / CAP * CAP
        let stop := min (base + CAP) (g.start + g.count)
        let run := id :: ids.takeWhile fun i => decide (base ≤ i ∧ i < stop)
        (g.update run (cols.map (·.take run.length))).bind fun g' =>
          Table.updateLoop fuel { t with groups := t.groups.set gi g' } ((id :: ids).drop run.length)
            (cols.map (·.drop run.length))

/-- `data_table_t::update`, data_table.cpp:261-296. -/
def Table.update (t : Table α) (ids : List Nat) (ch : Chunk α) : Res (Table α) :=
  if ch.size = 0 then .ok t
  else if ids.length < ch.size then .ub
  else t.updateLoop (ch.size + 1) (ids.take ch.size) ch.cols

/-! ### Reading -/

/-- The loop of `collection_t::initialize_scan`, collection.cpp:51-53, from the group with index `gi`
on. -/
def findFirst (refs : List Nat) : List (RowGroup α) → Nat → ScanSt → Res ScanSt
  | [], _, st => .ok st
  | g :: gs, gi, st => (g.initScan gi refs st).bind fun r => if r.2 then .ok r.1 else findFirst refs gs (gi + 1) r.1

/-- `collection_t::initialize_scan`, collection.cpp:45-54. -/
def Table.initScan (t : Table α) (refs : List Nat) : Res ScanSt :=
  findFirst refs t.groups 0 ⟨none, 0, 0, [], t.total⟩

/-- The inner loop of `collection_scan_state::scan`, table_state.cpp:187-199. -/
def nextGroup (refs : List Nat) : List (RowGroup α) → Nat → ScanSt → Res ScanSt
  | [], _, st => .ok { st with grp := none }
  | g :: gs, gi, st =>
    if st.endRow ≤ g.start then .ok { st with grp := none }
    else (g.initScan gi refs st).bind fun r => if r.2 then .ok r.1 else nextGroup refs gs (gi + 1) r.1

/-- `collection_scan_state::scan`, table_state.cpp:178-203. Each round takes another row group. -/
def Table.scanLoop (cmp : α → α → Ordering) (t : Table α) (refs : List Nat) (flt : Option (Flt α)) :
    Nat → ScanSt → Res (ScanSt × Out α)
  | 0, _ => .diverges
  | fuel + 1, st =>
    match st.grp with
    | none => .ok (st, ⟨[], refs.map fun _ => []⟩)
    | some gi =>
      match t.groups[gi]? with
      | none => .ub
      | some g =>
        (g.scan cmp refs flt (rounds st.maxRow) st).bind fun r =>
          if r.2.ids ≠ [] then .ok r
          else if st.endRow ≤ g.start + g.count then .ok ({ r.1 with grp := none }, r.2)
          else (nextGroup refs (t.groups.drop (gi + 1)) (gi + 1) r.1).bind fun st' =>
            Table.scanLoop cmp t refs flt fuel st'

/-- `data_table_t::scan`: one call. -/
def Table.scan (cmp : α → α → Ordering) (t : Table α) (refs : List Nat) (flt : Option (Flt α)) (st : ScanSt) :
    Res (ScanSt × Out α) := t.scanLoop cmp refs flt (t.groups.length + 1) st

/-- Calls of `data_table_t::scan` until one returns no row, as a reader of the whole table makes them
(collection.cpp:99-109 with a new chunk for each call). -/
def Table.scanMany (cmp : α → α → Ordering) (t : Table α) (refs : List Nat) (flt : Option (Flt α)) :
    Nat → ScanSt → Res (List (Out α))
  | 0, _ => .diverges
  | fuel + 1, st =>
    (t.scan cmp refs flt st).bind fun r =>
      if r.2.ids = [] then .ok []
      else (Table.scanMany cmp t refs flt fuel r.1).map' fun os => r.2 :: os

/-- Reading a whole table: `initialize_scan` and `scan` until the end. -/
def Table.read (cmp : α → α → Ordering) (t : Table α) (refs : List Nat) (flt : Option (Flt α)) : Res (List (Out α)) :=
  (t.initScan refs).bind fun st => t.scanMany cmp refs flt (t.total + 1) st

/-- The loop of `row_group_t::fetch_row`, row_group.cpp:356-376. -/
def RowGroup.fetchRow (g : RowGroup α) (row : Nat) : List Nat → Res (List (Cell α))
  | [] => .ok []
  | j :: js =>
    match g.cols[j]? with
    | none => .ub
    | some s => (s.fetchRow row).bind fun x => (RowGroup.fetchRow g row js).map' fun r => x :: r

/-- `collection_t::fetch`, collection.cpp:121-143: the rows with these ids, unknown ids skipped. -/
def Table.fetch (t : Table α) (refs : List Nat) : List Nat → Res (List (List (Cell α)))
  | [] => .ok []
  | id :: ids =>
    (SegLookup.tryIndex t.nodes id).bind fun o =>
      match o with
      | none => Table.fetch t refs ids
      | some gi =>
        match t.groups[gi]? with
        | none => .ub
        | some g => (g.fetchRow id refs).bind fun r => (Table.fetch t refs ids).map' fun rs => r :: rs

/-- The loop of `collection_t::calculate_size`, collection.cpp:150-159 with row_group.cpp:514-517:
every row group is asked for its vector 0. -/
def sizeLoop : List (RowGroup α) → Res Nat
  | [] => .ok 0
  | g :: gs => (g.select 0 g.count).bind fun s => (sizeLoop gs).map' fun r => s.count + r

/-- `data_table_t::calculate_size` -/
def Table.size (t : Table α) : Res Nat := sizeLoop t.groups

end Verif.Table
