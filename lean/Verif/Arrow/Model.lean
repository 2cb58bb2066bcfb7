import Verif.NestCol.Model
/-!
Model of the hand-over of data chunks to and from the Arrow C data interface: `to_arrow_array`
(components/vector/arrow/arrow_converter.cpp:22-26, the appenders in arrow/appender) and
`data_chunk_from_arrow` (arrow_converter.cpp:295-340, arrow/scaner/arrow_conversion.cpp).

Simplifications, valid for the whole file.
* A buffer of fixed width elements is the list of the elements; buffers of bits are lists of bytes.
* A chunk is handed over by one call of `append` into new buffers (arrow_converter.cpp:23-24), so
  `row_count` is 0, `from` is 0 and `to` is the number of rows throughout.
* Numbers of all widths, floats and timestamps are one kind of element. Decimals, maps, unions, list
  views, string views and run-end encoded columns are left out; dictionary encoded columns end where
  the code does.
* `direct_conversion` (arrow_conversion.cpp:308-319) only points the vector at the buffer; here the
  elements are read at once. Lifetimes are left out.
* `chunk_offset` is 0 everywhere (arrow_converter.cpp:317-333).
-/
namespace Verif.Arrow
open Verif
open Verif.Table (Cell)
open Verif.NestCol

/-! ## Bits -/

abbrev Byte := BitVec 8

/-- Bit `p` of a buffer. -/
def getBit (bs : List Byte) (p : Nat) : Option Bool := (bs[p / 8]?).map fun b => b.getLsbD (p % 8)

/-- `resize_validity` of an empty buffer, arrow_buffer.hpp:94-97: all bits are set. -/
def fullBits (n : Nat) : List Byte := List.replicate ((n + 7) / 8) 0xFF#8

/-- `unset_bit`, append_data.hpp:23-25, at the position `bit_position` gives (18-21). -/
def unsetBit (bs : List Byte) (p : Nat) : Res (List Byte) :=
  if p / 8 < bs.length then .ok (bs.modify (p / 8) fun b => b &&& ~~~(1#8 <<< (p % 8))) else .ub

/-- The loop of `add_validity`, append_data.hpp:81-88 (bool_data.cpp:36-46, string_data.hpp:46-53 for
their kinds): the bits of the flags that are not set are cleared, from bit `p` on. -/
def clearBits (p : Nat) : List Bool → List Byte → Res (List Byte)
  | [], bs => .ok bs
  | true :: fs, bs => clearBits (p + 1) fs bs
  | false :: fs, bs => (unsetBit bs p).bind fun bs' => clearBits (p + 1) fs bs'

/-- The buffer `add_validity` leaves, append_data.hpp:70-89. -/
def packBits (fs : List Bool) : Res (List Byte) := clearBits 0 fs (fullBits fs.length)

/-- `n` elements from position `o` on; behind the end is outside of the memory. -/
def slice {β : Type} (l : List β) (o n : Nat) : Res (List β) :=
  if o + n ≤ l.length then .ok ((l.drop o).take n) else .ub

/-- One round of `shift_right`, arrow_conversion.cpp:10-14, from the last byte to the first, and the
bit that is carried on to the next round. -/
def shiftPass (carry : Bool) : List Byte → List Byte × Bool
  | [] => ([], carry)
  | b :: bs => (((if (shiftPass carry bs).2 then 0x80#8 else 0#8) ||| (b >>> 1)) :: (shiftPass carry bs).1, b.getLsbD 0)

/-- `shift_right`, arrow_conversion.cpp:7-16. -/
def shiftRight : (shift : Nat) → (carry : Bool) → List Byte → List Byte
  | 0, _, bs => bs
  | s + 1, carry, bs => shiftRight s (shiftPass carry bs).2 (shiftPass carry bs).1

/-- The first `n` bits of a buffer. -/
def bitsOf (bs : List Byte) : Nat → Nat → Res (List Bool)
  | _, 0 => .ok []
  | p, n + 1 =>
    match getBit bs p with
    | none => .ub
    | some b => (bitsOf bs (p + 1) n).map' fun r => b :: r

/-! ## Elements, types, Arrow arrays -/

/-- An element that is stored in place. -/
inductive Datum where
  | num (n : Nat)
  | bool (b : Bool)
  | str (s : List UInt8)
deriving DecidableEq

/-- Zeroed memory, for the elements of numbers. -/
instance : Inhabited Datum := ⟨.num 0⟩

mutual
/-- The types that are handed over. -/
inductive ATy where
  | num
  | bool
  | str
  | list (t : ATy)
  | array (k : Nat) (t : ATy)
  | struct (ts : ATys)
inductive ATys where
  | nil
  | cons (t : ATy) (ts : ATys)
end

/-- `length`, `null_count`, `offset` and the validity buffer of an `ArrowArray`, arrow.hpp:37-55. -/
structure Hdr where
  len : Nat
  nulls : Int
  off : Nat
  bits : Option (List Byte)

mutual
/-- An `ArrowArray` with its buffers and children. The offsets of strings are 8 bytes wide (format
"U"), those of lists 4 bytes (format "+l"). -/
inductive AArr where
  | num (h : Hdr) (vals : List Nat)
  | bool (h : Hdr) (data : List Byte)
  | str (h : Hdr) (offs : List Nat) (chars : List UInt8)
  | list (h : Hdr) (offs : List Nat) (child : AArr)
  | array (h : Hdr) (child : AArr)
  | struct (h : Hdr) (cs : AArrs)
  | dict (h : Hdr) (idx : List Nat) (values : AArr)
inductive AArrs where
  | nil
  | cons (a : AArr) (as : AArrs)
end

def AArr.hdr : AArr → Hdr
  | .num h _ => h
  | .bool h _ => h
  | .str h _ _ => h
  | .list h _ _ => h
  | .array h _ => h
  | .struct h _ => h
  | .dict h _ _ => h

/-! ## Out -/

/-- `add_validity` and `finalize_child`, arrow_appender.cpp:61-83: `null_count` counts the bits that
were cleared (append_data.hpp:65-68). -/
def mkHdr (fs : List Bool) : Res Hdr :=
  (packBits fs).map' fun b => ⟨fs.length, ((fs.filter fun f => !f).length : Nat), 0, some b⟩

/-- The number in a cell; what the memory of a NULL cell holds does not matter. -/
def numOf : Cell Datum → Res Nat
  | none => .ok 0
  | some (.num n) => .ok n
  | some _ => .ub

/-- `arrow_scalar_base_data_t::append`, scalar_data.hpp:42-51. -/
def nums : List (Cell Datum) → Res (List Nat)
  | [] => .ok []
  | c :: cs => (numOf c).bind fun n => (nums cs).map' fun r => n :: r

/-- The bits `arrow_bool_data_t::append` clears in the data buffer, bool_data.cpp:36-46: NULL rows
keep their bit. -/
def boolOf : Cell Datum → Res Bool
  | none => .ok true
  | some (.bool b) => .ok b
  | some _ => .ub

def bools : List (Cell Datum) → Res (List Bool)
  | [] => .ok []
  | c :: cs => (boolOf c).bind fun b => (bools cs).map' fun r => b :: r

/-- `arrow_string_data_t::append_templated`, string_data.hpp:38-66: the offsets behind the first one
and the characters; `last` is `last_offset`. -/
def strs (last : Nat) : List (Cell Datum) → Res (List Nat × List UInt8)
  | [] => .ok ([], [])
  | none :: cs => (strs last cs).map' fun r => (last :: r.1, r.2)
  | some (.str s) :: cs => (strs (last + s.length) cs).map' fun r => ((last + s.length) :: r.1, s ++ r.2)
  | some _ :: _ => .ub

/-- The largest `int32_t`. -/
def INT32_MAX : Nat := 2 ^ 31 - 1

/-- `arrow_list_data_t::append_offsets`, list_data.hpp:61-98: the offsets behind the first one;
`last` is `last_offset`. -/
def listOffs (last : Nat) : List (Option (Nat × Nat)) → Res (List Nat)
  | [] => .ok []
  | none :: rs => (listOffs last rs).map' fun r => last :: r
  | some (_, n) :: rs =>
    if last + n > INT32_MAX then .throws else (listOffs (last + n) rs).map' fun r => (last + n) :: r

/-- The rows of the child, list_data.hpp:94-96: positions are cut to 32 bits. -/
def childRows (rs : List (Option (Nat × Nat))) : List Nat := (gather rs).map fun p => p % 2 ^ 32

/-- The cells of a vector of elements. -/
def cellsOf (v : NVec Datum) (sel : Sel) : Res (List (Cell Datum)) :=
  match v with
  | .prim cells => take cells sel.idx
  | _ => .ub

mutual
/-- `append` of every kind of appender (arrow_appender.cpp:120-215) and `finalize_child`, for the
rows `sel` of a vector: scalar_data.hpp:29-53, bool_data.cpp:15-48, string_data.hpp:21-68,
list_data.hpp:29-45, fixed_size_list_data.cpp:17-35, struct_data.cpp:19-36. The rows of the child of
a list are handed over as a DICTIONARY (list_data.hpp:38-42); the fields of a struct that is a
DICTIONARY are DICTIONARIES themselves (vector.cpp:252-256); an array is flattened first
(fixed_size_list_data.cpp:26). -/
def exportA : ATy → NVec Datum → Sel → Res AArr
  | .num, v, sel => (cellsOf v sel).bind fun cs => (mkHdr (cs.map Option.isSome)).bind fun h =>
      (nums cs).map' fun d => .num h d
  | .bool, v, sel => (cellsOf v sel).bind fun cs => (mkHdr (cs.map Option.isSome)).bind fun h =>
      (bools cs).bind fun d => (packBits d).map' fun b => .bool h b
  | .str, v, sel => (cellsOf v sel).bind fun cs => (mkHdr (cs.map Option.isSome)).bind fun h =>
      (strs 0 cs).map' fun d => .str h (0 :: d.1) d.2
  | .list t, v, sel =>
    match v with
    | .list rows c => (take rows sel.idx).bind fun rs => (mkHdr (rs.map Option.isSome)).bind fun h =>
        (listOffs 0 rs).bind fun os => (exportA t c (.dict (childRows rs))).map' fun a => .list h (0 :: os) a
    | _ => .ub
  | .array k t, v, sel =>
    (flatten v sel).bind fun p =>
      match p.1 with
      | .array _ fl c => (take fl (List.range p.2)).bind fun b => (mkHdr b).bind fun h =>
          (exportA t c (.flat (p.2 * k))).map' fun a => .array h a
      | _ => .ub
  | .struct ts, v, sel =>
    match v with
    | .struct fl fs => (take fl sel.idx).bind fun b => (mkHdr b).bind fun h =>
        (exportAs ts fs sel).map' fun as => .struct h as
    | _ => .ub
/-- The fields, struct_data.cpp:29-34. -/
def exportAs : ATys → NVecs Datum → Sel → Res AArrs
  | .nil, vs, _ =>
    match vs with
    | .nil => .ok .nil
    | _ => .ub
  | .cons t ts, vs, sel =>
    match vs with
    | .cons v vs => (exportA t v sel).bind fun a => (exportAs ts vs sel).map' fun as => .cons a as
    | _ => .ub
end

/-! ## In -/

/-- `get_effective_offset`, arrow_conversion.cpp:18-26; `none` is -1. -/
def effOff (off parent : Nat) : Option Nat → Nat
  | some nested => off + nested
  | none => off + parent

/-- `get_validity`, arrow_conversion.cpp:33-60, for `n` rows of a new mask or of one that was filled
before; `off` is the effective offset. -/
def getValidity (h : Hdr) (off n : Nat) (mask : List Bool) : Res (List Bool) :=
  if h.nulls = 0 then .ok mask
  else match h.bits with
    | none => .ok mask
    | some bs =>
      if off % 8 = 0 then (slice bs (off / 8) ((n + 7) / 8)).bind fun b => bitsOf b 0 n
      else (slice bs (off / 8) ((n + 7) / 8 + 1)).bind fun b =>
        bitsOf ((shiftRight (off % 8) false b).take ((n + 7) / 8)) 0 n

/-- Rows that are NULL in the parent are marked NULL: arrow_conversion.cpp:551-559, 629-637, 932-939. -/
def markNull (mask parent : List Bool) : List Bool := List.zipWith (fun m p => m && p) mask parent

/-- The mask of a parent that was handed down, if any. -/
def markOpt (mask : List Bool) : Option (List Bool) → List Bool
  | none => mask
  | some p => markNull mask p

/-- The flags of the elements of arrays, arrow_conversion.cpp:639-648. -/
def spread (k : Nat) (mask : List Bool) : List Bool := mask.flatMap fun b => List.replicate k b

/-- A mask over data. -/
def mask {β : Type} (m : List Bool) (d : List β) : List (Option β) :=
  List.zipWith (fun b x => if b then some x else none) m d

/-- `set_vector_string<uint64_t>`, arrow_conversion.cpp:320-334, from the offset `o` on: NULL rows are
not looked at; a string of 4 GB or more is refused. -/
def readStrs (offs : List Nat) (chars : List UInt8) : Nat → List Bool → Res (List (Cell Datum))
  | _, [] => .ok []
  | o, false :: m => (readStrs offs chars (o + 1) m).map' fun r => none :: r
  | o, true :: m =>
    match offs[o]?, offs[o + 1]? with
    | some a, some b =>
      if (2 ^ 64 + b - a) % 2 ^ 64 > 2 ^ 32 - 1 then .throws
      else (slice chars a ((2 ^ 64 + b - a) % 2 ^ 64)).bind fun s =>
        (readStrs offs chars (o + 1) m).map' fun r => some (.str s) :: r
    | _, _ => .ub

/-- The entries `convert_arrow_list_offsets_templated<uint32_t>` makes, arrow_conversion.cpp:456-461;
`cur` is `cur_offset`. -/
def readEntries (cur : Nat) : List Nat → List (Nat × Nat)
  | a :: b :: os => (cur, (2 ^ 32 + b - a) % 2 ^ 32) :: readEntries (cur + (2 ^ 32 + b - a) % 2 ^ 32) (b :: os)
  | _ => []

/-- The entries, `start_offset` and `list_size`, arrow_conversion.cpp:441-465. -/
def listParts (offs : List Nat) (o n : Nat) : Res (List (Nat × Nat) × Nat × Nat) :=
  if n = 0 then .ok ([], 0, 0)
  else (slice offs o (n + 1)).bind fun os =>
    match os.head?, os.getLast? with
    | some a, some z => .ok (readEntries 0 os, a, (2 ^ 64 + z - a) % 2 ^ 64)
    | _, _ => .ub

mutual
/-- `NCol.resizeOk` for types: whether `vector_t::resize`, vector.cpp:367-398, gives enough room. -/
def ATy.resizeOk (need : Nat) : ATy → (cap mult per : Nat) → Bool
  | .num, _, mult, per => decide (mult ≤ per ∧ need * per ≤ nextPow2 need * mult)
  | .bool, _, mult, per => decide (mult ≤ per ∧ need * per ≤ nextPow2 need * mult)
  | .str, _, mult, per => decide (mult ≤ per ∧ need * per ≤ nextPow2 need * mult)
  | .list _, _, mult, per => decide (mult ≤ per ∧ need * per ≤ nextPow2 need * mult)
  | .array k t, cap, mult, per => t.resizeOk need (cap * k) (mult * cap) (per * k)
  | .struct ts, cap, mult, per => ts.resizeOk need cap mult per
def ATys.resizeOk (need : Nat) : ATys → (cap mult per : Nat) → Bool
  | .nil, _, _, _ => true
  | .cons t ts, cap, mult, per => t.resizeOk need cap mult per && ts.resizeOk need cap mult per
end

/-- `vector.reserve(list_size)`, arrow_conversion.cpp:541 with vector_buffer.cpp:99-106. -/
def reserveTy (t : ATy) (cap need : Nat) : Res Unit :=
  if need ≤ cap then .ok () else if t.resizeOk need cap 1 1 then .ok () else .ub

/-- An offset of -1 for an empty child without offset: arrow_conversion.cpp:564-568, 653-656. -/
def childNested (n start : Nat) : Option Nat := if n = 0 ∧ start = 0 then none else some start

mutual
/-- `arrow_column_to_vector`, arrow_conversion.cpp:677-1054, with `arrow_to_list` (524-602) and
`arrow_to_array` (604-675): `n` rows into a vector with room for `cap` rows whose mask was filled by
the caller. `nested` and `parent` are `nested_offset` and `parent_offset`, `pm` is `parent_mask`.
A dictionary encoded array is decoded (1190-1231), but `add_dictionary` (arrow_type.cpp:424-429)
assigns the decoded vector to its own parameter: line 1261 follows a null pointer. -/
def importA : ATy → AArr → (cap n : Nat) → (nested : Option Nat) → (pm : Option (List Bool)) → (parent : Nat) →
    (m : List Bool) → Res (NVec Datum)
  | .num, a, _, n, nested, _, parent, m =>
    match a with
    | .num h vals => (slice vals (effOff h.off parent nested) n).map' fun d => .prim (mask m (d.map .num))
    | _ => .ub
  | .bool, a, _, n, nested, _, parent, m =>
    match a with
    | .bool h data => (bitsOf data (effOff h.off parent nested) n).map' fun d => .prim (mask m (d.map .bool))
    | _ => .ub
  | .str, a, _, _, nested, _, parent, m =>
    match a with
    | .str h offs chars => (readStrs offs chars (effOff h.off parent nested) m).map' fun d => .prim d
    | _ => .ub
  | .list t, a, cap, n, nested, pm, parent, m =>
    match a with
    | .list h offs child =>
      (getValidity h (effOff h.off parent nested) n m).bind fun m1 =>
      (listParts offs (effOff h.off parent nested) n).bind fun p =>
      (reserveTy t cap p.2.2).bind fun _ =>
      (getValidity child.hdr (child.hdr.off + p.2.1) p.2.2 (List.replicate p.2.2 true)).bind fun cm =>
      (importA t child cap p.2.2 (childNested p.2.2 p.2.1) none 0 cm).map' fun c =>
        .list (mask (markOpt m1 pm) p.1) c
    | _ => .ub
  | .array k t, a, cap, n, nested, pm, parent, m =>
    match a with
    | .array h child =>
      let o := effOff h.off parent nested * k
      (getValidity h (effOff h.off parent nested) n m).bind fun m1 =>
      (getValidity child.hdr (child.hdr.off + o) (n * k) (List.replicate (n * k) true)).bind fun cm =>
      (importA t child (cap * k) (n * k) (childNested (n * k) o) none 0
        (markNull cm (spread k (markOpt m1 pm)))).map' fun c => .array k (markOpt m1 pm) c
    | _ => .ub
  | .struct ts, a, cap, n, nested, _, _, m =>
    match a with
    | .struct h cs => (importAs ts cs cap n nested h.off m).map' fun vs => .struct m vs
    | _ => .ub
/-- The fields, arrow_conversion.cpp:925-980: `off` is the offset of the struct. -/
def importAs : ATys → AArrs → (cap n : Nat) → (nested : Option Nat) → (off : Nat) → (m : List Bool) → Res (NVecs Datum)
  | .nil, _, _, _, _, _, _ => .ok .nil
  | .cons t ts, as, cap, n, nested, off, m =>
    match as with
    | .cons a as =>
      (getValidity a.hdr (effOff a.hdr.off off nested) n (List.replicate n true)).bind fun cm =>
      (importA t a cap n nested (some m) off (markNull cm m)).bind fun v =>
      (importAs ts as cap n nested off m).map' fun vs => .cons v vs
    | .nil => .ub
end

/-- A column of `data_chunk_from_arrow`, arrow_converter.cpp:313-334: the offset of the chunk is taken
for the flags (331), not for the data (333). -/
def importCol (rootOff n : Nat) (t : ATy) (a : AArr) : Res (NVec Datum) :=
  (getValidity a.hdr (a.hdr.off + rootOff) n (List.replicate n true)).bind fun m => importA t a n n none none 0 m

/-- All columns, arrow_converter.cpp:304-338. -/
def importChunk (rootOff n : Nat) : List ATy → List AArr → Res (List (NVec Datum))
  | [], _ => .ok []
  | t :: ts, a :: as => (importCol rootOff n t a).bind fun v => (importChunk rootOff n ts as).map' fun vs => v :: vs
  | _ :: _, [] => .ub

/-- All columns out, arrow_appender.cpp:28-35. -/
def exportChunk : List (ATy × NVec Datum × Sel) → Res (List AArr)
  | [] => .ok []
  | c :: cs => (exportA c.1 c.2.1 c.2.2).bind fun a => (exportChunk cs).map' fun as => a :: as

end Verif.Arrow
