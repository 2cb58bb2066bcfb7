import Verif.Table.Model
/-!
Model of nested columns, components/table/list_column_data.cpp, array_column_data.cpp and
struct_column_data.cpp, on top of the columns of `Verif.Table.Model`, and of the parts of
components/vector that hand nested values over.

Simplifications, valid for the whole file.
* As in `Verif.Table.Model`: a block of memory is the list of the elements in it, numbers are
  unbounded (the theorems keep them below 2^62), locks are left out.
* A row group has at most 1024 rows (collection.hpp:34), so a column is scanned once per scan state:
  setting a state up and scanning are one function, and `skip` never comes before a scan.
* Updates of nested columns are left out: lists and arrays refuse them
  (list_column_data.cpp:227-240, array_column_data.cpp:128-141).
* The children of the vectors that are handed in are FLAT vectors; the vector itself is FLAT or a
  DICTIONARY over a FLAT one.
-/
namespace Verif.NestCol
open Verif
open Verif.Table

variable {α : Type}

/-- Positions read from a list; a position behind its end is outside of the memory. -/
def take {β : Type} (l : List β) : List Nat → Res (List β)
  | [] => .ok []
  | p :: ps =>
    match l[p]? with
    | none => .ub
    | some x => (take l ps).map' fun r => x :: r

/-! ## Types and values -/

mutual
/-- `complex_logical_type`: elements stored in place, lists, arrays of `k` elements, structs. -/
inductive NTy (α : Type) where
  | prim (ty : Ty α)
  | list (t : NTy α)
  | array (k : Nat) (t : NTy α)
  | struct (ts : NTys α)
/-- The types of the fields of a struct; their names do not matter here. -/
inductive NTys (α : Type) where
  | nil
  | cons (t : NTy α) (ts : NTys α)
end

/-- `logical_value_t` as the user sees it. -/
inductive NVal (α : Type) where
  | null
  | prim (a : α)
  | list (xs : List (NVal α))
  | array (xs : List (NVal α))
  | struct (xs : List (NVal α))

/-! ## Vectors -/

mutual
/-- A FLAT `vector_t`: the null mask and the data of every row. A list row is its `list_entry_t`
(offset and length) in the child; an array row `i` owns the rows `i * k` to `i * k + k - 1` of the
child; a field of a struct has the rows of the struct. -/
inductive NVec (α : Type) where
  | prim (cells : List (Cell α))
  | list (rows : List (Option (Nat × Nat))) (child : NVec α)
  | array (k : Nat) (valid : List Bool) (child : NVec α)
  | struct (valid : List Bool) (fs : NVecs α)
inductive NVecs (α : Type) where
  | nil
  | cons (v : NVec α) (vs : NVecs α)
end

/-- The rows of a vector. -/
def NVec.len : NVec α → Nat
  | .prim cells => cells.length
  | .list rows _ => rows.length
  | .array _ valid _ => valid.length
  | .struct valid _ => valid.length

/-- `n` values from position `o` on, one after the other: vector.cpp:646-648, 657-659. -/
def collect (f : Nat → Res (NVal α)) (o : Nat) : Nat → Res (List (NVal α))
  | 0 => .ok []
  | n + 1 => (f o).bind fun x => (collect f (o + 1) n).map' fun xs => x :: xs

/-- A cell as a value. -/
def cellVal : Cell α → NVal α
  | none => .null
  | some a => .prim a

mutual
/-- `vector_t::value`, vector.cpp:550-668, of a FLAT vector. -/
def NVec.value : NVec α → Nat → Res (NVal α)
  | .prim cells, i =>
    match cells[i]? with
    | none => .ub
    | some c => .ok (cellVal c)
  | .list rows child, i =>
    match rows[i]? with
    | none => .ub
    | some none => .ok .null
    | some (some (o, n)) => (collect child.value o n).map' .list
  | .array k valid child, i =>
    match valid[i]? with
    | none => .ub
    | some false => .ok .null
    | some true => (collect child.value (i * k) k).map' .array
  | .struct valid fs, i =>
    match valid[i]? with
    | none => .ub
    | some false => .ok .null
    | some true => (fs.values i).map' .struct
/-- The fields of a struct, vector.cpp:636-639. -/
def NVecs.values : NVecs α → Nat → Res (List (NVal α))
  | .nil, _ => .ok []
  | .cons v vs, i => (v.value i).bind fun x => (vs.values i).map' fun xs => x :: xs
end

/-- The rows of a vector that are handed over: the first `n` of a FLAT vector, or those a DICTIONARY
names. -/
inductive Sel where
  | flat (n : Nat)
  | dict (l : List Nat)

/-- `referenced_indexing`, vector.cpp:949-980. -/
def Sel.idx : Sel → List Nat
  | .flat n => List.range n
  | .dict l => l

mutual
/-- A new vector of the type of another one, without rows. -/
def NVec.blank : NVec α → NVec α
  | .prim _ => .prim []
  | .list _ c => .list [] c.blank
  | .array k _ c => .array k [] c.blank
  | .struct _ fs => .struct [] fs.blank
def NVecs.blank : NVecs α → NVecs α
  | .nil => .nil
  | .cons v vs => .cons v.blank vs.blank
end

/-- The positions in the child of the elements of the rows, one row after the other;
list_column_data.cpp:186-196 and vector_operations.cpp:794-803. -/
def gather : List (Option (Nat × Nat)) → List Nat
  | [] => []
  | none :: rs => gather rs
  | some (o, n) :: rs => List.range' o n ++ gather rs

/-- The entries of copied list rows, vector_operations.cpp:813-823; `base` is
`old_target_child_len`. -/
def place (base : Nat) : List (Option (Nat × Nat)) → List (Option (Nat × Nat))
  | [] => []
  | none :: rs => none :: place base rs
  | some (_, n) :: rs => some (base, n) :: place (base + n) rs

mutual
/-- `n` more rows as they are in a new vector, vector.cpp:64-99: zeroed memory, none of them NULL.
Simplified: memory that was added by `resize` (vector.cpp:367-398) is not zeroed, reading it is
undefined; here it is zeroed, too. -/
def NVec.grow [Inhabited α] (n : Nat) : NVec α → NVec α
  | .prim cells => .prim (cells ++ List.replicate n (some default))
  | .list rows c => .list (rows ++ List.replicate n (some (0, 0))) c
  | .array k valid c => .array k (valid ++ List.replicate n true) (c.grow (n * k))
  | .struct valid fs => .struct (valid ++ List.replicate n true) (fs.grow n)
def NVecs.grow [Inhabited α] (n : Nat) : NVecs α → NVecs α
  | .nil => .nil
  | .cons v vs => .cons (v.grow n) (vs.grow n)
end

mutual
/-- `vector_ops::copy`, vector_operations.cpp:560-859: the rows `idx` of the second vector are written
behind the rows of the first one. For arrays the code takes `type().size()` for the number of
elements (753), which is 0 for every array type (types.cpp:162-164): no element is copied, the rows
have the elements the new vector was made with. -/
def NVec.copy [Inhabited α] : NVec α → NVec α → List Nat → Res (NVec α)
  | .prim t, .prim s, idx => (take s idx).map' fun x => .prim (t ++ x)
  | .list tr tc, .list sr sc, idx => (take sr idx).bind fun rs =>
      (tc.copy sc (gather rs)).map' fun c => .list (tr ++ place tc.len rs) c
  | .array k tv tc, .array _ sv _, idx => (take sv idx).map' fun x => .array k (tv ++ x) (tc.grow (idx.length * k))
  | .struct tv tfs, .struct sv sfs, idx => (take sv idx).bind fun x =>
      (tfs.copy sfs idx).map' fun fs => .struct (tv ++ x) fs
  | _, _, _ => .ub
/-- The children of a struct, vector_operations.cpp:732-746. -/
def NVecs.copy [Inhabited α] : NVecs α → NVecs α → List Nat → Res (NVecs α)
  | .nil, .nil, _ => .ok .nil
  | .cons t ts, .cons s ss, idx => (t.copy s idx).bind fun v => (ts.copy ss idx).map' fun vs => .cons v vs
  | _, _, _ => .ub
end

/-- `vector_t::flatten`, vector.cpp:793-802, with the number of rows. -/
def flatten [Inhabited α] (v : NVec α) : Sel → Res (NVec α × Nat)
  | .flat n => .ok (v, n)
  | .dict l => (v.blank.copy v l).map' fun w => (w, l.length)

/-! ## Columns -/

mutual
/-- `standard_column_data_t`, `list_column_data_t` (the offsets, the null flags, the elements),
`array_column_data_t` and `struct_column_data_t` (`count_`, the null flags, the parts). -/
inductive NCol (α : Type) where
  | prim (s : Std α)
  | list (start : Nat) (offs : Col Nat) (valid : Col Bool) (child : NCol α)
  | array (k : Nat) (start : Nat) (count : Nat) (valid : Col Bool) (child : NCol α)
  | struct (start : Nat) (count : Nat) (valid : Col Bool) (fs : NCols α)
inductive NCols (α : Type) where
  | nil
  | cons (c : NCol α) (cs : NCols α)
end

/-- Elements that fit into a segment: list offsets (8 bytes each, column_segment.cpp:330) and null
flags. -/
structure Caps where
  offs : Nat
  valid : Nat

mutual
/-- `column_data_t::create_column`, column_data.cpp:339-365, with list_column_data.cpp:5-15,
array_column_data.cpp:8-16, struct_column_data.cpp:7-27: all parts start at the row of the column. -/
def NCol.empty (caps : Caps) (a : Nat) : NTy α → NCol α
  | .prim ty => .prim (Std.empty ⟨ty, caps.valid⟩ a)
  | .list t => .list a (Col.empty (fixedTy 0 caps.offs) a) (Col.empty (fixedTy true caps.valid) a) (NCol.empty caps a t)
  | .array k t => .array k a 0 (Col.empty (fixedTy true caps.valid) a) (NCol.empty caps a t)
  | .struct ts => .struct a 0 (Col.empty (fixedTy true caps.valid) a) (NCols.empty caps a ts)
def NCols.empty (caps : Caps) (a : Nat) : NTys α → NCols α
  | .nil => .nil
  | .cons t ts => .cons (NCol.empty caps a t) (NCols.empty caps a ts)
end

/-- `max_entry`, column_data.cpp:34 and struct_column_data.cpp:37; a struct has at least one field. -/
def NCol.maxEntry : NCol α → Nat
  | .prim s => s.data.count
  | .list _ offs _ _ => offs.count
  | .array _ _ count _ _ => count
  | .struct _ _ _ fs => match fs with
    | .nil => 0
    | .cons c _ => c.maxEntry

mutual
/-- `initialize_append`, list_column_data.cpp:144-154, array_column_data.cpp:90-98,
struct_column_data.cpp:137-147. -/
def NCol.initAppend : NCol α → NCol α
  | .prim s => .prim s.initAppend
  | .list a offs valid child => .list a offs.initAppend valid.initAppend child.initAppend
  | .array k a n valid child => .array k a n valid.initAppend child.initAppend
  | .struct a n valid fs => .struct a n valid.initAppend fs.initAppend
def NCols.initAppend : NCols α → NCols α
  | .nil => .nil
  | .cons c cs => .cons c.initAppend cs.initAppend
end

/-- `input_list.length` of a row that is not NULL. -/
def rowLen : Option (Nat × Nat) → Nat
  | none => 0
  | some (_, n) => n

/-- `append_offsets`, list_column_data.cpp:169-182; `base` is `start_offset + child_count`. -/
def ends (base : Nat) : List (Option (Nat × Nat)) → List Nat
  | [] => []
  | r :: rs => (base + rowLen r) :: ends (base + rowLen r) rs

/-- `child_contiguous`, list_column_data.cpp:168-182; `count` is `child_count`. -/
def contiguous (count : Nat) : List (Option (Nat × Nat)) → Bool
  | [] => true
  | none :: rs => contiguous count rs
  | some (o, n) :: rs => decide (o = count) && contiguous (count + n) rs

/-- `child_count` after the loop. -/
def total : List (Option (Nat × Nat)) → Nat
  | [] => 0
  | r :: rs => rowLen r + total rs

/-- The rows of the child vector that are appended, list_column_data.cpp:183-199. -/
def childSel (rs : List (Option (Nat × Nat))) : Sel :=
  if contiguous 0 rs then .flat (total rs) else .dict (gather rs)

mutual
/-- `append` of every kind of column: standard_column_data.cpp:80-85 behind column_data.cpp:208-212,
list_column_data.cpp:156-211, array_column_data.cpp:100-114, struct_column_data.cpp:149-164. -/
def NCol.append [Inhabited α] : NCol α → NVec α → Sel → Res (NCol α)
  | .prim s, v, sel =>
    match v with
    | .prim cells => (take cells sel.idx).bind fun b => (s.append b).map' .prim
    | _ => .ub
  | .list a offs valid child, v, sel =>
    match v with
    | .list rows cv => (take rows sel.idx).bind fun rs =>
        (if total rs = 0 then Res.ok child else child.append cv (childSel rs)).bind fun child' =>
        (offs.append (ends child.maxEntry rs)).bind fun offs' =>
        (valid.append (rs.map Option.isSome)).map' fun valid' => .list a offs' valid' child'
    | _ => .ub
  | .array k a n valid child, v, sel =>
    (flatten v sel).bind fun p =>
      match p.1 with
      | .array _ fl cv => (take fl (List.range p.2)).bind fun b =>
          (valid.append b).bind fun valid' =>
          (child.append cv (.flat (p.2 * k))).map' fun child' => .array k a (n + p.2) valid' child'
      | _ => .ub
  | .struct a n valid fs, v, sel =>
    (flatten v sel).bind fun p =>
      match p.1 with
      | .struct fl fvs => (take fl (List.range p.2)).bind fun b =>
          (valid.append b).bind fun valid' =>
          (fs.append fvs p.2).map' fun fs' => .struct a (n + p.2) valid' fs'
      | _ => .ub
/-- The fields, struct_column_data.cpp:159-162; the vector has a child for every field. -/
def NCols.append [Inhabited α] : NCols α → NVecs α → Nat → Res (NCols α)
  | .nil, vs, _ =>
    match vs with
    | .nil => .ok .nil
    | _ => .ub
  | .cons c cs, vs, n =>
    match vs with
    | .cons v vs => (c.append v (.flat n)).bind fun c' => (cs.append vs n).map' fun cs' => .cons c' cs'
    | _ => .ub
end

/-! ### Scanning -/

/-- Where a scan starts: `none` is `initialize_scan`, a row is `initialize_scan_with_offset`. -/
abbrev Pos := Option Nat

/-- `column_data_t::initialize_scan_with_offset`, column_data.cpp:82-89, or `initialize_scan`, 73-80. -/
def scanSt {β : Type} (c : Col β) : Pos → Res Scan
  | none => .ok c.initScan
  | some row => (SegLookup.segmentIndex c.nodes row).map' fun i => ⟨i, row⟩

/-- `column_data_t::scan_count`, column_data.cpp:137-143. -/
def scanCount {β : Type} (c : Col β) (pos : Pos) (n : Nat) : Res (List β) :=
  (scanSt c pos).bind fun st =>
    if n = 0 then .ok [] else (scanLoop (c.segs.drop st.cur) st.cur st.row n).map' Prod.fst

/-- `fetch_list_offset`, list_column_data.cpp:36-43. -/
def listOffset (c : Col Nat) (row : Nat) : Res Nat := (c.segOf row).bind fun s => s.at row

/-- Row 0 is the start: list_column_data.cpp:46-49, array_column_data.cpp:41-44. -/
def fromStart : Pos → Pos
  | some 0 => none
  | p => p

/-- `state.row_index` of a list or standard column. -/
def rowIndex {β : Type} (c : Col β) : Pos → Nat
  | none => c.initScan.row
  | some row => row

/-- The test of list_column_data.cpp:110-115: a child that is neither struct nor array would be read
behind its end. -/
def beyond (child : NCol α) (pos : Pos) (need : Nat) : Bool :=
  match child with
  | .prim s => decide (s.data.start + s.data.count < rowIndex s.data pos + need)
  | .list a offs _ _ => decide (a + offs.count < rowIndex offs (fromStart pos) + need)
  | _ => false

mutual
/-- A vector of the type of the column, without rows. -/
def NCol.blank : NCol α → NVec α
  | .prim _ => .prim []
  | .list _ _ _ c => .list [] c.blank
  | .array k _ _ _ c => .array k [] c.blank
  | .struct _ _ _ fs => .struct [] fs.blank
def NCols.blank : NCols α → NVecs α
  | .nil => .nil
  | .cons c cs => .cons c.blank cs.blank
end

/-- `next_power_of_two`, vector_buffer.hpp:16-30. -/
def nextPow2 (n : Nat) : Nat := if n ≤ 1 then 1 else 2 ^ (Nat.log2 (n - 1) + 1)

mutual
/-- Whether `vector_t::resize` (vector.cpp:367-398) of a vector with room for `cap` rows gives room
for `need` rows. `mult` is the multiplier of `find_resize_infos` (300-332), `per` the elements each
row really has. Arrays multiply by the room of their vector instead of their own size (324,
vector_buffer.hpp:193): then more is read from the old memory than it has, or too little is
allocated. A list inside keeps its elements apart. -/
def NCol.resizeOk (need : Nat) : NCol α → (cap mult per : Nat) → Bool
  | .prim _, _, mult, per => decide (mult ≤ per ∧ need * per ≤ nextPow2 need * mult)
  | .list _ _ _ _, _, mult, per => decide (mult ≤ per ∧ need * per ≤ nextPow2 need * mult)
  | .array k _ _ _ c, cap, mult, per => c.resizeOk need (cap * k) (mult * cap) (per * k)
  | .struct _ _ _ fs, cap, mult, per => fs.resizeOk need cap mult per
def NCols.resizeOk (need : Nat) : NCols α → (cap mult per : Nat) → Bool
  | .nil, _, _, _ => true
  | .cons c cs, cap, mult, per => c.resizeOk need cap mult per && cs.resizeOk need cap mult per
end

/-- `result.reserve(child_scan_count)`, list_column_data.cpp:106 with vector_buffer.cpp:99-106. -/
def reserve (child : NCol α) (cap need : Nat) : Res Unit :=
  if need ≤ cap then .ok () else if child.resizeOk need cap 1 1 then .ok () else .ub

/-- The entries of scanned list rows, list_column_data.cpp:95-102: `cur` is `current_offset`. -/
def entries (base : Nat) : Nat → List Nat → List (Nat × Nat)
  | _, [] => []
  | cur, e :: es => (cur, e - cur - base) :: entries base (cur + (e - cur - base)) es

/-- Entries with null flags. -/
def maskRows (es : List (Nat × Nat)) (fl : List Bool) : List (Option (Nat × Nat)) :=
  List.zipWith (fun e b => if b then some e else none) es fl

/-- `child_scan_count`, list_column_data.cpp:105: the elements of the scanned rows. -/
def childCount (base : Nat) (es : List Nat) : Nat :=
  match es.getLast? with
  | none => 0
  | some e => e - base

/-- `child_offset` of list_column_data.cpp:55; 0 when the scan starts at the beginning. -/
def listBase (a : Nat) (offs : Col Nat) : Pos → Res Nat
  | none => .ok 0
  | some row => if row = a then .ok 0 else listOffset offs (row - 1)

/-- `child_count` of array_column_data.cpp:52. -/
def arrayBase (a k : Nat) : Pos → Nat
  | none => 0
  | some row => (row - a) * k

/-- Where the child of a list or an array is scanned from, list_column_data.cpp:55-59 and
array_column_data.cpp:51-58: nowhere (its state stays empty) if there is nothing behind the offset. -/
def childPos (a base limit : Nat) : Pos → Option Pos
  | none => some none
  | some _ => if base < limit then some (some (a + base)) else none

mutual
/-- A scan state set up at `pos` and `scan_count` of `n` rows into a new vector with room for `cap`
rows: standard_column_data.cpp:32-44, 67-71; list_column_data.cpp:27-34, 45-61, 78-122;
array_column_data.cpp:28-59, 76-82; struct_column_data.cpp:39-67, 111-124. -/
def NCol.scan : NCol α → Pos → (cap n : Nat) → Res (NVec α)
  | .prim s, pos, _, n => (scanCount s.data pos n).bind fun d =>
      (scanCount s.valid pos n).map' fun w => .prim (cells d w)
  | .list a offs valid child, pos, cap, n =>
    let p := fromStart pos
    (listBase a offs p).bind fun base =>
    (scanCount offs p n).bind fun es =>
    (scanCount valid p n).bind fun fl =>
      let rows := maskRows (entries base 0 es) fl
      let need := childCount base es
      if need = 0 then .ok (.list rows child.blank)
      else (reserve child cap need).bind fun _ =>
        match childPos a base child.maxEntry p with
        | none => .ub
        | some q =>
          if beyond child q need then .throws
          else (child.scan q cap need).map' fun c => .list rows c
  | .array k a _ valid child, pos, cap, n =>
    let p := fromStart pos
    (scanCount valid p n).bind fun fl =>
      if n * k = 0 then .ok (.array k fl child.blank)
      else match childPos a (arrayBase a k p) child.maxEntry p with
        | none => .ub
        | some q => (child.scan q (cap * k) (n * k)).map' fun c => .array k fl c
  | .struct _ _ valid fs, pos, cap, n => (scanCount valid pos n).bind fun fl =>
      (fs.scan pos cap n).map' fun vs => .struct fl vs
def NCols.scan : NCols α → Pos → (cap n : Nat) → Res (NVecs α)
  | .nil, _, _, _ => .ok .nil
  | .cons c cs, pos, cap, n => (c.scan pos cap n).bind fun v => (cs.scan pos cap n).map' fun vs => .cons v vs
end

/-! ### Single rows -/

mutual
/-- `fetch_row` into the next row of a result: standard_column_data.cpp:122-132,
list_column_data.cpp:242-278, array_column_data.cpp:143-165, struct_column_data.cpp:217-230. -/
def NCol.fetch [Inhabited α] : NCol α → Nat → NVec α → Res (NVec α)
  | .prim s, row, r =>
    match r with
    | .prim cs => (s.fetchRow row).map' fun x => .prim (cs ++ [x])
    | _ => .ub
  | .list a offs valid child, row, r =>
    match r with
    | .list rs cv =>
      (if row = a then Res.ok 0 else listOffset offs (row - 1)).bind fun b =>
      (listOffset offs row).bind fun e =>
      (valid.fetchRow row).bind fun ok =>
        if ok = false then .ok (.list (rs ++ [none]) cv)
        else if e - b = 0 then .ok (.list (rs ++ [some (cv.len, 0)]) cv)
        else (child.scan (some (a + b)) (e - b) (e - b)).bind fun s =>
          (cv.copy s (List.range (e - b))).map' fun c => .list (rs ++ [some (cv.len, e - b)]) c
    | _ => .ub
  | .array k a _ valid child, row, r =>
    match r with
    | .array k' fl cv =>
      (valid.fetchRow row).bind fun ok =>
      (child.scan (some (a + (row - a) * k)) k k).bind fun s =>
      (cv.copy s (List.range k)).map' fun c => .array k' (fl ++ [ok]) c
    | _ => .ub
  | .struct _ _ valid fs, row, r =>
    match r with
    | .struct fl vs => (valid.fetchRow row).bind fun ok => (fs.fetch row vs).map' fun w => .struct (fl ++ [ok]) w
    | _ => .ub
def NCols.fetch [Inhabited α] : NCols α → Nat → NVecs α → Res (NVecs α)
  | .nil, _, r =>
    match r with
    | .nil => .ok .nil
    | _ => .ub
  | .cons c cs, row, r =>
    match r with
    | .cons v vs => (c.fetch row v).bind fun v' => (cs.fetch row vs).map' fun vs' => .cons v' vs'
    | _ => .ub
end

/-! ## What the users of a column do -/

/-- Batches appended one after the other, each with its own append state. -/
def appendAll [Inhabited α] : NCol α → List (NVec α × Sel) → Res (NCol α)
  | c, [] => .ok c
  | c, b :: bs => (c.initAppend.append b.1 b.2).bind fun c' => appendAll c' bs

/-- Rows fetched one after the other into one result: the loop of collection.cpp:128-143. -/
def fetchAll [Inhabited α] (c : NCol α) : List Nat → NVec α → Res (NVec α)
  | [], r => .ok r
  | row :: rows, r => (c.fetch row r).bind fun r' => fetchAll c rows r'

end Verif.NestCol
