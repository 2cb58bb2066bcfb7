import Verif.Base.Res
/-!
Model of components/vector/validation.cpp and validation.hpp: null masks.

A mask owns a buffer of 64-bit words. The constructors allocate `count_` words (not
`entry_count(count_)`), validation.cpp:5-11 and 23-27, so an owned buffer has `count_` words.
Accesses outside the buffer and through a null pointer are undefined behaviour. Here masks are
values; the sharing of buffers made by `slice` is modelled in `Verif.Validity.Alias`.
Memory resources are left out.
-/
namespace Verif.Validity
open Verif

abbrev Word := BitVec 64

/-- `validity_data_t::MAX_ENTRY`, validation.hpp:22. -/
def maxEntry : Word := BitVec.allOnes 64

/-- `validity_mask_t`, validation.hpp:42-108: `words = none` is the null pointer (all valid). -/
structure Mask where
  words : Option (List Word)
  count : Nat
  deriving DecidableEq, Repr

/-- `validity_data_t::entry_count`, validation.hpp:33-35. -/
def entryCount (count : Nat) : Nat := (count + 63) / 64

/-- `validity_data_t(resource, size)`, validation.cpp:5-11. -/
def freshData (size : Nat) : List Word := List.replicate size maxEntry

/-- `validity_mask_t(resource, size)`, validation.cpp:23-27. -/
def Mask.new (size : Nat) : Mask := ⟨some (freshData size), size⟩

/-- `validity_data_t(resource, mask, size)` with a mask, validation.cpp:13-21: reads `size` words. -/
def copyData (mask : List Word) (size : Nat) : Res (List Word) :=
  if size ≤ mask.length then .ok (mask.take size) else .ub

/-- Copy constructor and copy assignment, validation.cpp:29-52. -/
def Mask.copy (other : Mask) : Res Mask :=
  match other.words with
  | none => .ok ⟨none, other.count⟩
  | some ws =>
    match copyData ws other.count with
    | .ok d => .ok ⟨some d, other.count⟩
    | .throws => .throws
    | .ub => .ub
    | .diverges => .diverges

/-- Store a word, validation.cpp: `validity_mask_[index] = w`. -/
def setWord (ws : List Word) (index : Nat) (w : Word) : Res (List Word) :=
  if index < ws.length then .ok (ws.set index w) else .ub

/-- `resize`, validation.cpp:277-297. -/
def resize (m : Mask) (newSize : Nat) : Res Mask :=
  let oldSize := m.count
  match m.words with
  | none => .ok ⟨some (freshData newSize), newSize⟩
  | some ws =>
    if newSize ≤ oldSize then .ok m
    else if entryCount oldSize ≤ ws.length ∧ entryCount oldSize ≤ newSize then
      .ok ⟨some (ws.take (entryCount oldSize) ++ List.replicate (newSize - entryCount oldSize) maxEntry), newSize⟩
    else .ub

/-- The words after `if (!validity_mask_) resize(resource_, count_)`. -/
def ensureWords (m : Mask) : List Word := m.words.getD (freshData m.count)

/-- `set_invalid(row)`, validation.cpp:71-85. -/
def setInvalid (m : Mask) (row : Nat) : Res Mask :=
  let ws := ensureWords m
  match ws[row / 64]? with
  | none => .ub
  | some w => .ok ⟨some (ws.set (row / 64) (w &&& ~~~(1#64 <<< (row % 64)))), m.count⟩

/-- `set_valid(row)`, validation.cpp:87-92: stores the value 1 (`true`) into WORD number `row`. -/
def setValid (m : Mask) (row : Nat) : Res Mask :=
  match setWord (ensureWords m) row 1#64 with
  | .ok ws => .ok ⟨some ws, m.count⟩
  | .throws => .throws
  | .ub => .ub
  | .diverges => .diverges

/-- `set_all_invalid(count)`, validation.cpp:94-104. The null pointer is not checked. -/
def setAllInvalid (m : Mask) (count : Nat) : Res Mask :=
  if count = 0 then .ok m
  else
    match m.words with
    | none => .ub
    | some ws =>
      let last := entryCount count - 1
      if last < ws.length then
        let w : Word := if count % 64 = 0 then 0#64 else maxEntry <<< (count % 64)
        .ok ⟨some ((List.replicate last 0#64 ++ ws.drop last).set last w), m.count⟩
      else .ub

/-- `row_is_valid`, validation.cpp:106-114 with `get_validity_entry`, 299-304. -/
def rowIsValid (m : Mask) (row : Nat) : Res Bool :=
  match m.words with
  | none => .ok true
  | some ws =>
    match ws[row / 64]? with
    | none => .ub
    | some w => .ok (decide (w &&& (1#64 <<< (row % 64)) ≠ 0#64))

/-- `while (entry) { entry &= entry - 1; ++valid; }`, validation.cpp:139-142: the final count.
64 rounds suffice because each one clears a bit. -/
def popLoop : Nat → Word → Nat → Nat
  | 0, _, valid => valid
  | fuel + 1, entry, valid => if entry = 0#64 then valid else popLoop fuel (entry &&& (entry - 1#64)) (valid + 1)

/-- The ragged part, validation.cpp:126-131: adds the masked word itself (1, 2, 4, …) instead of
1. `uint64_t` sum. -/
def raggedCount (entry : Word) (n : Nat) (valid : Nat) : Nat :=
  (List.range n).foldl (fun v i => (v + (entry &&& (1#64 <<< i)).toNat) % 2 ^ 64) valid

/-- The loop of `count_valid`, validation.cpp:123-143, over the words from `idx` on. -/
def countLoop (count entryCnt : Nat) : List Word → Nat → Nat → Nat
  | [], _, valid => valid
  | entry :: rest, idx, valid =>
    if idx + 1 = entryCnt ∧ count % 64 ≠ 0 then raggedCount entry (count % 64) valid
    else countLoop count entryCnt rest (idx + 1) (if entry = maxEntry then valid + 64 else popLoop 64 entry valid)

/-- `count_valid`, validation.cpp:116-146. -/
def countValid (m : Mask) (count : Nat) : Res Nat :=
  match m.words with
  | none => .ok count
  | some ws =>
    if count = 0 then .ok 0
    else if entryCount count ≤ ws.length then
      .ok (countLoop count (entryCount count) (ws.take (entryCount count)) 0 0)
    else .ub

/-- `set(row, valid)`, validation.cpp:148-166. -/
def set (m : Mask) (row : Nat) (valid : Bool) : Res Mask :=
  if valid then
    match m.words with
    | none => .ok m
    | some ws =>
      match ws[row / 64]? with
      | none => .ub
      | some w => .ok ⟨some (ws.set (row / 64) (w ||| (1#64 <<< (row % 64)))), m.count⟩
  else setInvalid m row

/-- `memcpy`/`memset` of `n` words into `tgt` at `to`. -/
def putWords (tgt : List Word) (to : Nat) (ws : List Word) : Res (List Word) :=
  if to + ws.length ≤ tgt.length then .ok (tgt.take to ++ ws ++ tgt.drop (to + ws.length)) else .ub

/-- The block of `units` source words from index `so`, all ones without a source mask,
validation.cpp:204-210. -/
def srcBlock (src : Option (List Word)) (so units : Nat) : Res (List Word) :=
  match src with
  | none => .ok (List.replicate units maxEntry)
  | some ws => if so + units ≤ ws.length then .ok ((ws.drop so).take units) else .ub

/-- The source word of the ragged end, validation.cpp:212-213. -/
def srcWord (src : Option (List Word)) (k : Nat) : Res Word :=
  match src with
  | none => .ok maxEntry
  | some ws => match ws[k]? with
    | some w => .ok w
    | none => .ub

/-- The aligned branch of `slice_in_place`, validation.cpp:199-222. -/
def sliceAligned (tgt : List Word) (src : Option (List Word)) (to sro count : Nat) : Res (List Word) :=
  let ragged := count % 64
  let units := count / 64
  let so := entryCount sro
  let t0 := entryCount to
  match srcBlock src so units with
  | .ok b =>
    match putWords tgt t0 b with
    | .ok t =>
      if ragged = 0 then .ok t
      else
        match srcWord src (so + units), t[t0 + units]? with
        | .ok s, some w =>
          .ok (t.set (t0 + units) ((w &&& (maxEntry <<< ragged)) ||| (s &&& (maxEntry >>> (64 - ragged)))))
        | _, _ => .ub
    | r => r
  | r => r

/-- The word loop of the second branch, validation.cpp:229-234: `si` is the index of the next
source word to be read. -/
def shiftLoop (src : List Word) (tail : Nat) : Nat → Word → Nat → Nat → List Word → Res (Word × Nat × List Word)
  | 0, e, si, _, tgt => .ok (e, si, tgt)
  | n + 1, e, si, ti, tgt =>
    match src[si]? with
    | none => .ub
    | some e' =>
      if ti < tgt.length then
        shiftLoop src tail n e' (si + 1) (ti + 1) (tgt.set ti ((e >>> tail) ||| (e' <<< (64 - tail))))
      else .ub

/-- The last, partial target word before masking, validation.cpp:236-240. -/
def raggedWord (ws : List Word) (e : Word) (tail ragged si : Nat) : Res Word :=
  if 64 - tail < ragged then
    match ws[si]? with
    | some e' => .ok ((e >>> tail) ||| (e' <<< (64 - tail)))
    | none => .ub
  else .ok (e >>> tail)

/-- The branch of `slice_in_place` for an aligned target and an unaligned source,
validation.cpp:223-246. The source pointer is not checked for null. -/
def sliceShift (tgt : List Word) (src : Option (List Word)) (to sro count : Nat) : Res (List Word) :=
  let ragged := count % 64
  let units := count / 64
  let tail := sro % 64
  match src with
  | none => .ub
  | some ws =>
    match ws[sro / 64]? with
    | none => .ub
    | some e0 =>
      match shiftLoop ws tail units e0 (sro / 64 + 1) (to / 64) tgt with
      | .ok (e, si, t) =>
        if ragged = 0 then .ok t
        else
          match raggedWord ws e tail ragged si, t[to / 64 + units]? with
          | .ok x, some w =>
            .ok (t.set (to / 64 + units) ((x &&& (maxEntry >>> (64 - ragged))) ||| (w &&& (maxEntry <<< ragged))))
          | _, _ => .ub
      | .throws => .throws
      | .ub => .ub
      | .diverges => .diverges

/-- Row by row: `for (i) set(target_offset + i, other.row_is_valid(f i))`,
validation.cpp:248-250 and 319-322. -/
def setRows (other : Mask) (to : Nat) (f : Nat → Nat) : Nat → Nat → Mask → Res Mask
  | 0, _, m => .ok m
  | n + 1, i, m =>
    match rowIsValid other (f i) with
    | .ok b =>
      match set m (to + i) b with
      | .ok m' => setRows other to f n (i + 1) m'
      | r => r
    | .throws => .throws
    | .ub => .ub
    | .diverges => .diverges

/-- Wrap words into a mask. -/
def wrap (count : Nat) : Res (List Word) → Res Mask
  | .ok ws => .ok ⟨some ws, count⟩
  | .throws => .throws
  | .ub => .ub
  | .diverges => .diverges

/-- `slice_in_place`, validation.cpp:187-251 (source and target buffers distinct). -/
def sliceInPlace (m other : Mask) (to sro count : Nat) : Res Mask :=
  if m.words.isNone ∧ other.words.isNone then .ok m
  else
    let tgt := ensureWords m
    if sro % 64 = 0 ∧ to % 64 = 0 then wrap m.count (sliceAligned tgt other.words to sro count)
    else if to % 64 = 0 then wrap m.count (sliceShift tgt other.words to sro count)
    else setRows other to (fun i => sro + i) count 0 ⟨some tgt, m.count⟩

/-- `slice`, validation.cpp:168-185. -/
def slice (m other : Mask) (offset count : Nat) : Res Mask :=
  match other.words with
  | none => .ok ⟨none, m.count⟩
  | some _ => if offset = 0 then .ok other else sliceInPlace (Mask.new count) other 0 offset count

/-- `combine`, validation.cpp:252-275 (for masks that do not share a buffer). -/
def combine (m other : Mask) (count : Nat) : Res Mask :=
  match other.words, m.words with
  | none, _ => .ok m
  | some o, none => wrap m.count (copyData o m.count)
  | some o, some ws =>
    match copyData ws m.count with
    | .ok d =>
      if entryCount count ≤ d.length ∧ entryCount count ≤ o.length then
        .ok ⟨some (List.zipWith (· &&& ·) (d.take (entryCount count)) (o.take (entryCount count)) ++
          d.drop (entryCount count)), m.count⟩
      else .ub
    | .throws => .throws
    | .ub => .ub
    | .diverges => .diverges

/-- `copy_indexing`, validation.cpp:306-323; `indexing = none` is the unset indexing vector,
for which `get_index` is the identity (indexing_vector.cpp:74). -/
def copyIndexing (m other : Mask) (indexing : Option (List Nat)) (sro to count : Nat) : Res Mask :=
  if other.words.isNone ∧ m.words.isNone then .ok m
  else
    match indexing with
    | none =>
      if sro % 64 = 0 ∧ to % 64 = 0 then sliceInPlace m other to sro count
      else setRows other to (fun i => sro + i) count 0 m
    | some idx =>
      if sro + count ≤ idx.length then setRows other to (fun i => idx.getD (sro + i) 0) count 0 m else .ub

end Verif.Validity
