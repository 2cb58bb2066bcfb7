import Verif.Base.Res
/-!
Model of components/table/row_version_manager.{hpp,cpp}: the insert and delete stamps of the rows
of a row group, kept per vector of 1024 rows either as one constant pair or as two arrays.

Simplifications: 64-bit ids are natural numbers (the code never does arithmetic on them); arrays of
1024 ids are functions on row positions, with accesses at 1024 and beyond reported as undefined
behaviour; `start_` and `has_changes_` (never read by the modelled functions) are left out; the
mutex serialises the calls, so each call is one step; row positions passed to a delete are
non-negative.
-/
namespace Verif.Mvcc
open Verif

/-- `DEFAULT_VECTOR_CAPACITY`, components/vector/indexing_vector.hpp:10. -/
def CAP : Nat := 1024
/-- `TRANSACTION_ID_START`, row_version_manager.hpp:16. -/
def TXN_START : Nat := 4611686018427388000
/-- `NOT_DELETED_ID`, row_version_manager.hpp:17 (2^64 - 2). -/
def NOT_DELETED : Nat := 18446744073709551614

/-- `transaction_data`, row_version_manager.hpp:19-26. -/
structure Txn where
  id : Nat
  start : Nat
  deriving DecidableEq, Repr

/-- `transaction_version_operator::use_inserted_version`, row_version_manager.cpp:10-12; also
`use_version`, row_version_manager.cpp:27-31. -/
def useVersion (t : Txn) (id : Nat) : Bool := decide (id < t.start) || id == t.id

/-- `transaction_version_operator::use_deleted_version`, row_version_manager.cpp:14-16. -/
def useDeleted (t : Txn) (id : Nat) : Bool := !useVersion t id

/-- `chunk_vector_info`, row_version_manager.hpp:100-141. -/
structure Vec where
  inserted : Nat → Nat
  insertId : Nat
  same : Bool
  deleted : Nat → Nat
  anyDel : Bool

/-- `chunk_info`, row_version_manager.hpp:34-98: a constant pair or two arrays. -/
inductive Info where
  | const (ins del : Nat)
  | vec (v : Vec)

/-- `chunk_vector_info::chunk_vector_info`, row_version_manager.cpp:99-108. -/
def Vec.fresh : Vec := ⟨fun _ => 0, 0, true, fun _ => NOT_DELETED, false⟩

/-- What a scan of one vector hands to its caller: the number of rows, and the positions written
to the indexing vector. -/
structure Sel where
  count : Nat
  written : List Nat

/-- How the caller reads it (row_group.cpp:254, 275-279): with `count == max_count` the indexing
vector is ignored and all rows are taken. -/
def Sel.rows (s : Sel) (maxCount : Nat) : List Nat :=
  if s.count = maxCount then List.range maxCount else s.written.take s.count

/-- The selection loops, row_version_manager.cpp:126-143. Positions from 1024 on are outside of
the arrays. -/
def selectLoop (p : Nat → Bool) (maxCount : Nat) : Res Sel :=
  if CAP < maxCount then .ub
  else
    let l := (List.range maxCount).filter p
    .ok ⟨l.length, l⟩

/-- `chunk_vector_info::templated_indexing_vector`, row_version_manager.cpp:110-146. -/
def Vec.select (v : Vec) (t : Txn) (maxCount : Nat) : Res Sel :=
  if v.same && !v.anyDel then
    if useVersion t v.insertId then .ok ⟨maxCount, []⟩ else .ok ⟨0, []⟩
  else if v.same then
    if !useVersion t v.insertId then .ok ⟨0, []⟩
    else selectLoop (fun i => useDeleted t (v.deleted i)) maxCount
  else if !v.anyDel then
    selectLoop (fun i => useVersion t (v.inserted i)) maxCount
  else
    selectLoop (fun i => useVersion t (v.inserted i) && useDeleted t (v.deleted i)) maxCount

/-- `chunk_info::indexing_vector`: the constant case is row_version_manager.cpp:40-50. -/
def Info.select (c : Info) (t : Txn) (maxCount : Nat) : Res Sel :=
  match c with
  | .const ins del => if useVersion t ins && useDeleted t del then .ok ⟨maxCount, []⟩ else .ok ⟨0, []⟩
  | .vec v => v.select t maxCount

/-- `chunk_info::fetch`, row_version_manager.cpp:71-73 and 174-176. -/
def Info.fetch (c : Info) (t : Txn) (row : Nat) : Bool :=
  match c with
  | .const ins del => useVersion t ins && !useVersion t del
  | .vec v => useVersion t (v.inserted row) && !useVersion t (v.deleted row)

/-- `chunk_vector_info::append`, row_version_manager.cpp:209-219. -/
def Vec.append (v : Vec) (start stop id : Nat) : Vec :=
  let v := if start = 0 then { v with insertId := id }
    else if v.insertId ≠ id then { v with same := false, insertId := NOT_DELETED }
    else v
  { v with inserted := fun i => if start ≤ i ∧ i < stop then id else v.inserted i }

/-- `chunk_info::commit_append`: constant case row_version_manager.cpp:75-78 (the failing assertion
is an abnormal end), vector case row_version_manager.cpp:221-228. -/
def Info.commitAppend (c : Info) (cid start stop : Nat) : Res Info :=
  match c with
  | .const _ del => if start = 0 ∧ stop = CAP then .ok (.const cid del) else .ub
  | .vec v => .ok (.vec { v with
      insertId := if v.same then cid else v.insertId
      inserted := fun i => if start ≤ i ∧ i < stop then cid else v.inserted i })

/-- `chunk_info::cleanup`: constant case row_version_manager.cpp:89-97, vector case
row_version_manager.cpp:230-244 (the loop starts at position 1). `true`: the stamps may go. -/
def Info.cleanup (c : Info) (lowest : Nat) : Bool :=
  match c with
  | .const ins del => if del ≠ NOT_DELETED then false else if ins > lowest then false else true
  | .vec v =>
    if v.anyDel then false
    else if !v.same then (List.range CAP).all (fun i => decide (i < 1) || !decide (v.inserted i > lowest))
    else if v.insertId > lowest then false else true

/-- The row positions of a `delete_info`, row_version_manager.hpp:143-166. -/
inductive DelInfo where
  | consecutive (count : Nat)
  | rows (l : List Nat)

/-- The positions `commit_delete` writes, row_version_manager.cpp:196-207. -/
def DelInfo.list : DelInfo → List Nat
  | .consecutive n => List.range n
  | .rows l => l

/-- `chunk_vector_info::delete_rows`, the loop of row_version_manager.cpp:182-192. The result is
the array after the loop together with the rows newly deleted (the code compacts them to the front
of `rows`, in order), or the exception, with the array as left behind. -/
def delLoop (txid : Nat) : List Nat → (Nat → Nat) → List Nat → (Nat → Nat) × Res (List Nat)
  | [], d, acc => (d, .ok acc.reverse)
  | r :: rs, d, acc =>
    if CAP ≤ r then (d, .ub)
    else if d r = txid then delLoop txid rs d acc
    else if d r ≠ NOT_DELETED then (d, .throws)
    else delLoop txid rs (fun i => if i = r then txid else d i) (r :: acc)

/-- `vector_info_`: the version information of each vector, row_version_manager.hpp:205. -/
abbrev Mgr := List (Option Info)

/-- `row_version_manager_t::get_chunk_info`, row_version_manager.cpp:293-298. -/
def Mgr.chunk (m : Mgr) (i : Nat) : Option Info := (m[i]?).join

/-- `row_version_manager_t::fill_vector_info`, row_version_manager.cpp:335-343. -/
def Mgr.fill (m : Mgr) (i : Nat) : Mgr :=
  if i < m.length then m else m ++ List.replicate (i + 1 - m.length) none

/-- `row_version_manager_t::indexing_vector`, row_version_manager.cpp:300-310. -/
def Mgr.select (m : Mgr) (t : Txn) (i maxCount : Nat) : Res Sel :=
  match m.chunk i with
  | none => .ok ⟨maxCount, []⟩
  | some c => c.select t maxCount

/-- `row_version_manager_t::fetch`, row_version_manager.cpp:325-333. -/
def Mgr.fetch (m : Mgr) (t : Txn) (row : Nat) : Bool :=
  match m.chunk (row / CAP) with
  | none => true
  | some c => c.fetch t (row - row / CAP * CAP)

/-- The loop `for (vector_idx = start; vector_idx <= end; ++vector_idx)` over the vectors
`i, ..., i + k - 1`, each iteration replacing the entry of its vector. `skip`: entries beyond the
end of `vector_info_` are skipped (cleanup, row_version_manager.cpp:425) rather than accessed. -/
def forChunks (skip : Bool) (f : Nat → Option Info → Res (Option Info)) : Nat → Nat → Mgr → Res Mgr
  | _, 0, m => .ok m
  | i, k + 1, m =>
    match m[i]? with
    | none => if skip then forChunks skip f (i + 1) k m else .ub
    | some c =>
      match f i c with
      | .ok c' => forChunks skip f (i + 1) k (m.set i c')
      | .throws => .throws
      | .ub => .ub
      | .diverges => .diverges

/-- `vector_start`, row_version_manager.cpp:356-358 and 396-398. -/
def vstart (s i : Nat) : Nat := if i = s / CAP then s - s / CAP * CAP else 0
/-- `vector_end`, row_version_manager.cpp:359-361, 399-401 and 419-421. -/
def vstop (e i : Nat) : Nat := if i = (e - 1) / CAP then e - (e - 1) / CAP * CAP else CAP

/-- Body of the loop of `append_version_info`, row_version_manager.cpp:355-383. -/
def appendChunk (txid s e i : Nat) (c : Option Info) : Res (Option Info) :=
  if vstart s i = 0 ∧ vstop e i = CAP then .ok (some (.const txid NOT_DELETED))
  else
    match c with
    | none => .ok (some (.vec (Vec.fresh.append (vstart s i) (vstop e i) txid)))
    | some (.vec v) => .ok (some (.vec (v.append (vstart s i) (vstop e i) txid)))
    | some (.const _ _) => .throws

/-- `row_version_manager_t::append_version_info` for the rows `s, ..., e - 1`,
row_version_manager.cpp:345-384. With `e = 0` the code computes `0 - 1` and fills the whole address
space: not modelled, treated as undefined. -/
def Mgr.append (m : Mgr) (txid s e : Nat) : Res Mgr :=
  if e = 0 then .ub
  else forChunks false (appendChunk txid s e) (s / CAP) ((e - 1) / CAP + 1 - s / CAP) (m.fill ((e - 1) / CAP))

/-- Body of the loop of `commit_append`, row_version_manager.cpp:395-404. -/
def commitChunk (cid s e i : Nat) (c : Option Info) : Res (Option Info) :=
  match c with
  | none => .ub
  | some c =>
    match c.commitAppend cid (vstart s i) (vstop e i) with
    | .ok c' => .ok (some c')
    | .throws => .throws
    | .ub => .ub
    | .diverges => .diverges

/-- `row_version_manager_t::commit_append`, row_version_manager.cpp:386-405. -/
def Mgr.commitAppend (m : Mgr) (cid s count : Nat) : Res Mgr :=
  if count = 0 then .ok m
  else forChunks false (commitChunk cid s (s + count)) (s / CAP) ((s + count - 1) / CAP + 1 - s / CAP) m

/-- Body of the loop of `cleanup_append`, row_version_manager.cpp:418-434 (`new_info` stays null in
both `cleanup` implementations). -/
def cleanupChunk (lowest e i : Nat) (c : Option Info) : Res (Option Info) :=
  if vstop e i ≠ CAP then .ok c
  else
    match c with
    | none => .ok none
    | some c => if c.cleanup lowest then .ok none else .ok (some c)

/-- `row_version_manager_t::cleanup_append`, row_version_manager.cpp:407-435. -/
def Mgr.cleanupAppend (m : Mgr) (lowest s count : Nat) : Res Mgr :=
  if count = 0 then .ok m
  else forChunks true (cleanupChunk lowest (s + count)) (s / CAP) ((s + count - 1) / CAP + 1 - s / CAP) m

/-- `row_version_manager_t::revert_append`, row_version_manager.cpp:437-444. -/
def Mgr.revertAppend (m : Mgr) (startRow : Nat) : Mgr :=
  m.mapIdx fun i c => if (startRow + (CAP - 1)) / CAP ≤ i then none else c

/-- The arrays a constant pair is expanded to, row_version_manager.cpp:446-463. -/
def toVec : Option Info → Vec
  | none => Vec.fresh
  | some (.const ins _) => { Vec.fresh with insertId := ins, inserted := fun _ => ins }
  | some (.vec v) => v

/-- `row_version_manager_t::delete_rows`, row_version_manager.cpp:465-470 with 178-194. The state is
kept when the call throws. -/
def Mgr.deleteRows (m : Mgr) (i txid : Nat) (rows : List Nat) : Mgr × Res (List Nat) :=
  let v := toVec (m.chunk i)
  let out := delLoop txid rows v.deleted []
  ((m.fill i).set i (some (.vec { v with deleted := out.1, anyDel := true })), out.2)

/-- `row_version_manager_t::commit_delete`, row_version_manager.cpp:472-476 with 196-207. -/
def Mgr.commitDelete (m : Mgr) (i cid : Nat) (info : DelInfo) : Res Mgr :=
  let v := toVec (m.chunk i)
  if info.list.all (fun r => decide (r < CAP)) then
    .ok ((m.fill i).set i (some (.vec { v with deleted := fun r => if r ∈ info.list then cid else v.deleted r })))
  else .ub

/-- A call of the manager's interface. -/
inductive Op where
  /-- transaction `txid` appends the rows `s, ..., e - 1` -/
  | append (txid s e : Nat)
  /-- the rows `s, ..., s + count - 1` are committed with commit id `cid` -/
  | commitAppend (cid s count : Nat)
  /-- transaction `txid` deletes positions `rows` of vector `i` -/
  | delete (i txid : Nat) (rows : List Nat)
  /-- the deletion of the positions in `info` of vector `i` is committed with commit id `cid` -/
  | commitDelete (i cid : Nat) (info : DelInfo)
  /-- clean-up after the rows `s, ..., s + count - 1` were committed -/
  | cleanup (lowest s count : Nat)
  /-- the rows from `s` on are removed again -/
  | revert (s : Nat)

/-- What a call reports. -/
inductive Out where
  | done
  | deleted (rows : List Nat)
  | conflict
  | failed

/-- One call: the state after it and what it reports. -/
def Mgr.step (m : Mgr) (op : Op) : Mgr × Out :=
  let lift : Res Mgr → Mgr × Out := fun r =>
    match r with
    | .ok m' => (m', .done)
    | _ => (m, .failed)
  match op with
  | .append txid s e => lift (m.append txid s e)
  | .commitAppend cid s count => lift (m.commitAppend cid s count)
  | .delete i txid rows =>
    let out := m.deleteRows i txid rows
    (out.1, match out.2 with
      | .ok l => .deleted l
      | .throws => .conflict
      | _ => .failed)
  | .commitDelete i cid info => lift (m.commitDelete i cid info)
  | .cleanup lowest s count => lift (m.cleanupAppend lowest s count)
  | .revert s => (m.revertAppend s, .done)

/-- A history of calls on a new manager (row_version_manager.cpp:261-263). -/
def Mgr.run (m : Mgr) : List Op → Mgr
  | [] => m
  | op :: ops => (m.step op).1.run ops

/-- What the calls of a history report. -/
def Mgr.outs (m : Mgr) : List Op → List Out
  | [] => []
  | op :: ops => (m.step op).2 :: (m.step op).1.outs ops

end Verif.Mvcc
