import Verif.VecVal.Model
/-!
Model of slices of columns (`vector_type::DICTIONARY`), copies (`vector_ops::copy`) and chunks (components/vector/data_chunk.cpp).
-/
namespace Verif.VecVal

/-- An entry of an indexing vector (components/vector/indexing_vector.cpp:78); past its end is undefined behaviour. -/
def pick (sel : List Nat) (i : Nat) : Res Nat :=
  match sel[i]? with
  | some r => .ok r
  | none => .ub

/-- An entry of an indexing vector that may be unset (78): then the row itself. -/
def pick? : Option (List Nat) → Nat → Res Nat
  | none, i => .ok i
  | some sel, i => pick sel i

/-- `indexing_vector_t::slice` (components/vector/indexing_vector.cpp:84-93): the rows `sel` picks of the rows `old` picks. -/
def compose (old : List Nat) (sel : Option (List Nat)) : Nat → Res (List Nat)
  | 0 => .ok []
  | n + 1 => (compose old sel n).bind fun rs => (pick? sel n).bind fun i => (pick old i).bind fun r => .ok (rs ++ [r])

/-- A vector that may be a slice of another one.  `sel` is none for a FLAT vector; for a DICTIONARY vector it is the indexing vector,
`base` the child and `own` the validity of the DICTIONARY vector itself, which was copied when it was made. -/
structure Dict (V : Type) where
  own : Nat → Bool
  sel : Option (List Nat)
  base : V

mutual
/-- A FLAT or DICTIONARY vector of a type.  The fields of a sliced struct are slices themselves; the child of a list or array is
FLAT. -/
@[reducible] def View : Ty → Type
  | .leaf k => Dict (Rows k.Carrier)
  | .list t => Dict (Lists (Vec t))
  | .array t _ => Dict (Arrays (Vec t))
  | .struct ts => Dict (Structs (Views ts))
@[reducible] def Views : List Ty → Type
  | [] => Unit
  | t :: ts => View t × Views ts
end

mutual
/-- A FLAT vector as it is. -/
def flat : (t : Ty) → Vec t → View t
  | .leaf _, v => ⟨v.valid, none, v⟩
  | .list _, v => ⟨v.rows.valid, none, v⟩
  | .array _ _, v => ⟨v.valid, none, v⟩
  | .struct ts, v => ⟨v.valid, none, ⟨v.valid, flats ts v.children⟩⟩
def flats : (ts : List Ty) → Vecs ts → Views ts
  | [], _ => ()
  | t :: ts, v => (flat t v.1, flats ts v.2)
end

/-- `vector_t::slice(indexing, count)` of a vector without fields (components/vector/vector.cpp:228-257): a FLAT vector becomes the
child, the indexes of a DICTIONARY vector are composed with the new ones. -/
def Dict.slice {V : Type} (d : Dict V) (valid : Nat → Bool) (sel : List Nat) (count : Nat) : Res (Dict V) :=
  match d.sel with
  | none => .ok ⟨valid, some sel, d.base⟩
  | some old => (compose old (some sel) count).bind fun s => .ok { d with sel := some s }

mutual
/-- `vector_t::slice(indexing, count)` (components/vector/vector.cpp:228-257, components/vector/vector_buffer.cpp:75-82); the cache of
the variant at 259-274 only saves composing the same indexes again. -/
def slice : (t : Ty) → View t → List Nat → Nat → Res (View t)
  | .leaf _, v, sel, n => v.slice v.base.valid sel n
  | .list _, v, sel, n => v.slice v.base.rows.valid sel n
  | .array _ _, v, sel, n => v.slice v.base.valid sel n
  | .struct ts, v, sel, n => (slices ts v.base.children sel n).bind fun c => (v.slice v.base.valid sel n).bind fun w =>
      .ok { w with base := { w.base with children := c } }
def slices : (ts : List Ty) → Views ts → List Nat → Nat → Res (Views ts)
  | [], _, _, _ => .ok ()
  | t :: ts, v, sel, n => (slice t v.1 sel n).bind fun a => (slices ts v.2 sel n).bind fun b => .ok (a, b)
end

/-- The row `vector_t::value_internal` looks at (components/vector/vector.cpp:548-577). -/
def Dict.row {V : Type} (d : Dict V) (i : Nat) : Res Nat :=
  match d.sel with
  | none => .ok i
  | some sel => pick sel i

/-- The validity `vector_t::value_internal` looks at: that of the vector itself, not of the child (components/vector/vector.cpp:579). -/
def Dict.mask {V : Type} (d : Dict V) (valid : Nat → Bool) : Nat → Bool :=
  match d.sel with
  | none => valid
  | some _ => d.own

mutual
/-- `vector_t::value` (components/vector/vector.cpp:548-680): the fields of a struct are asked for the row of the slice, all else is read
at the row of the child. -/
def view : (t : Ty) → View t → Nat → Res (Val t)
  | .leaf k, v, i => (v.row i).bind fun r => get (.leaf k) { v.base with valid := v.mask v.base.valid } r
  | .list t, v, i => (v.row i).bind fun r => get (.list t) { v.base with rows := { v.base.rows with valid := v.mask v.base.rows.valid } } r
  | .array t n, v, i => (v.row i).bind fun r => get (.array t n) { v.base with valid := v.mask v.base.valid } r
  | .struct ts, v, i => (v.row i).bind fun r =>
      if v.mask v.base.valid r then (views ts v.base.children i).bind fun xs => .ok (some xs) else .ok none
def views : (ts : List Ty) → Views ts → Nat → Res (Vals ts)
  | [], _, _ => .ok ()
  | t :: ts, v, i => (view t v.1 i).bind fun a => (views ts v.2 i).bind fun b => .ok (a, b)
end

mutual
/-- `vector_t::set_value` (components/vector/vector.cpp:419-423 and as in `set`): on a DICTIONARY vector the child is written, at the
row the indexes give. -/
def put : (t : Ty) → View t → Nat → Val t → Res (View t)
  | .leaf k, v, i, x => (v.row i).bind fun r => (set (.leaf k) v.base r x).bind fun b => .ok { v with base := b }
  | .list t, v, i, x => (v.row i).bind fun r => (set (.list t) v.base r x).bind fun b => .ok { v with base := b }
  | .array t n, v, i, x => (v.row i).bind fun r => (set (.array t n) v.base r x).bind fun b => .ok { v with base := b }
  | .struct ts, v, i, none => (v.row i).bind fun r => (puts ts v.base.children r (nulls ts)).bind fun c =>
      .ok { v with base := ⟨mark v.base.valid r false, c⟩ }
  | .struct ts, v, i, some xs => (v.row i).bind fun r => (puts ts v.base.children r xs).bind fun c =>
      .ok { v with base := ⟨mark v.base.valid r true, c⟩ }
def puts : (ts : List Ty) → Views ts → Nat → Vals ts → Res (Views ts)
  | [], _, _, _ => .ok ()
  | t :: ts, v, i, x => (put t v.1 i x.1).bind fun a => (puts ts v.2 i x.2).bind fun b => .ok (a, b)
end

/-! ### Copies -/

/-- The indexes a copy reads with (components/vector/vector_operations.cpp:568-583): those of a slice are merged with the ones asked
for. -/
def Dict.merge {V : Type} (d : Dict V) (sel : Option (List Nat)) (count : Nat) : Res (Option (List Nat)) :=
  match d.sel with
  | none => .ok sel
  | some old => (compose old sel count).bind fun s => .ok (some s)

/-- The validity is copied (components/vector/vector_operations.cpp:613-622, components/vector/validation.cpp:317-334; Verif/Validity
has the words). -/
def copyMask (src : Nat → Bool) (sel : Option (List Nat)) (soff toff : Nat) : Nat → (Nat → Bool) → Res (Nat → Bool)
  | 0, tgt => .ok tgt
  | n + 1, tgt => (copyMask src sel soff toff n tgt).bind fun f => (pick? sel (soff + n)).bind fun r => .ok (mark f (toff + n) (src r))

/-- A row of data is copied as it is; `keep` says it is skipped. -/
def copyRow {α : Type} (src : Rows α) (r : Nat) (tgt : Rows α) (i : Nat) (keep : Bool) : Res (Rows α) :=
  if keep then .ok tgt
  else if r < src.cap ∧ i < tgt.cap then .ok { tgt with data := fun j => if j = i then src.data r else tgt.data j } else .ub

/-- `templated_copy` and the copy of strings (components/vector/vector_operations.cpp:41-55, 711-725): a string is copied only where
the target's row is valid. -/
def copyRows {α : Type} (src : Rows α) (sel : Option (List Nat)) (soff toff : Nat) (string : Bool) : Nat → Rows α → Res (Rows α)
  | 0, tgt => .ok tgt
  | n + 1, tgt => (copyRows src sel soff toff string n tgt).bind fun t => (pick? sel (soff + n)).bind fun r =>
      copyRow src r t (toff + n) (string && !t.valid (toff + n))

/-- The rows of the child the lists that are copied refer to (components/vector/vector_operations.cpp:789-798). -/
def childRows (src : Rows (Nat × Nat)) (valid : Nat → Bool) (sel : Option (List Nat)) (soff toff : Nat) : Nat → Res (List Nat)
  | 0 => .ok []
  | n + 1 => (childRows src valid sel soff toff n).bind fun rs =>
      if valid (toff + n) then (pick? sel (soff + n)).bind fun r => (src.read r).bind fun e => .ok (rs ++ (List.range e.2).map (e.1 + ·))
      else .ok rs

/-- The entries of the lists (components/vector/vector_operations.cpp:808-818); `at'` is where the elements of the next list are.  The
entry of a NULL row is not looked at later and is left out. -/
def copyEntries (src : Rows (Nat × Nat)) (sel : Option (List Nat)) (soff toff at' : Nat) : Nat → Rows (Nat × Nat) → Res (Rows (Nat × Nat) × Nat)
  | 0, tgt => .ok (tgt, at')
  | n + 1, tgt => (copyEntries src sel soff toff at' n tgt).bind fun ta => (pick? sel (soff + n)).bind fun r =>
      if r < src.cap ∧ toff + n < ta.1.cap then
        if ta.1.valid (toff + n) then (src.read r).bind fun e =>
          .ok ({ ta.1 with data := fun j => if j = toff + n then some (ta.2, e.2) else ta.1.data j }, ta.2 + e.2)
        else .ok ({ ta.1 with data := fun j => if j = toff + n then none else ta.1.data j }, ta.2)
      else .ub

/-- `next_power_of_two` (components/vector/vector_buffer.hpp:16-30), on numbers that do not overflow. -/
def nextPow2 (v : Nat) : Nat :=
  if v = 0 then 1
  else
    let a := v - 1
    let a := a ||| (a >>> 1)
    let a := a ||| (a >>> 2)
    let a := a ||| (a >>> 4)
    let a := a ||| (a >>> 8)
    let a := a ||| (a >>> 16)
    let a := a ||| (a >>> 32)
    a + 1

/-- `list_vector_buffer_t::reserve` (components/vector/vector_buffer.cpp:99-106). -/
def reserve {V : Type} (rs : Nat → Nat → V → Res V) (l : Lists V) (need : Nat) : Res (Lists V) :=
  if need ≤ l.ccap then .ok l else (rs l.ccap (nextPow2 need) l.child).bind fun v => .ok { l with child := v, ccap := nextPow2 need }

/-- `complex_logical_type::size` of an ARRAY type, which `vector_ops::copy` takes for the number of its elements
(components/types/types.cpp:162-164, components/vector/vector_operations.cpp:748). -/
def arrayTypeSize : Nat := 0

/-- The indexes for the elements of the arrays that are copied (components/vector/vector_operations.cpp:750-757). -/
def childSel (sel : Option (List Nat)) (soff size : Nat) : Nat → Res (List Nat)
  | 0 => .ok []
  | n + 1 => (childSel sel soff size n).bind fun rs => (pick? sel (soff + n)).bind fun r => .ok (rs ++ (List.range size).map (r * size + ·))

mutual
/-- `vector_ops::copy` into a FLAT vector (components/vector/vector_operations.cpp:560-832): `n` rows of the rows `sel` picks, from the
`soff`th on, go to rows `toff` and following.  The fields of a struct are copied with the indexes asked for, not the merged ones. -/
def copy : (t : Ty) → View t → Vec t → (sel : Option (List Nat)) → (count soff toff n : Nat) → Res (Vec t)
  | .leaf k, src, tgt, sel, count, soff, toff, n => (src.merge sel count).bind fun s =>
      if n = 0 then .ok tgt else (copyMask src.base.valid s soff toff n tgt.valid).bind fun f =>
        if k.handled then copyRows src.base s soff toff (k = .string) n { tgt with valid := f } else .throws
  | .list t, src, tgt, sel, count, soff, toff, n => (src.merge sel count).bind fun s =>
      if n = 0 then .ok tgt else (copyMask src.base.rows.valid s soff toff n tgt.rows.valid).bind fun f =>
        (childRows src.base.rows f s soff toff n).bind fun rs => (reserve (resize t) tgt (tgt.size + rs.length)).bind fun l =>
          (copy t (flat t src.base.child) l.child (some rs) rs.length 0 tgt.size rs.length).bind fun c =>
            (copyEntries src.base.rows s soff toff tgt.size n { tgt.rows with valid := f }).bind fun e =>
              .ok ⟨e.1, c, l.ccap, tgt.size + rs.length⟩
  | .array t _, src, tgt, sel, count, soff, toff, n => (src.merge sel count).bind fun s =>
      if n = 0 then .ok tgt else (copyMask src.base.valid s soff toff n tgt.valid).bind fun f =>
        (childSel s soff arrayTypeSize n).bind fun rs =>
          (copy t (flat t src.base.child) tgt.child (some rs) (count * arrayTypeSize) (soff * arrayTypeSize) (toff * arrayTypeSize)
            (count * arrayTypeSize - soff * arrayTypeSize)).bind fun c => .ok { tgt with valid := f, child := c }
  | .struct ts, src, tgt, sel, count, soff, toff, n => (src.merge sel count).bind fun s =>
      if n = 0 then .ok tgt else (copyMask src.base.valid s soff toff n tgt.valid).bind fun f =>
        (copies ts src.base.children tgt.children sel count soff toff n).bind fun c => .ok ⟨f, c⟩
def copies : (ts : List Ty) → Views ts → Vecs ts → (sel : Option (List Nat)) → (count soff toff n : Nat) → Res (Vecs ts)
  | [], _, _, _, _, _, _, _ => .ok ()
  | t :: ts, src, tgt, sel, count, soff, toff, n => (copy t src.1 tgt.1 sel count soff toff n).bind fun a =>
      (copies ts src.2 tgt.2 sel count soff toff n).bind fun b => .ok (a, b)
end

/-! ### Chunks -/

/-- A `data_chunk_t` whose columns are FLAT (components/vector/data_chunk.hpp). -/
structure Chunk (ts : List Ty) where
  cols : Vecs ts
  count : Nat
  cap : Nat

/-- A chunk that may be sliced. -/
structure Sliced (ts : List Ty) where
  cols : Views ts
  count : Nat

/-- The constructor (components/vector/data_chunk.cpp:7-16). -/
def Chunk.new (ts : List Ty) (cap : Nat) : Chunk ts := ⟨makes ts cap, 0, cap⟩

/-- A row is written, column after column with `set_value`, and counted with `set_cardinality`
(components/vector/data_chunk.cpp:45-47, data_chunk.hpp:25-28). -/
def Chunk.addRow {ts : List Ty} (c : Chunk ts) (xs : Vals ts) : Res (Chunk ts) :=
  (sets ts c.cols c.count xs).bind fun v => .ok { c with cols := v, count := c.count + 1 }

/-- A row is read, column after column (components/vector/data_chunk.cpp:40-43). -/
def Chunk.row {ts : List Ty} (c : Chunk ts) (i : Nat) : Res (Vals ts) := gets ts c.cols i

/-- Of a chunk that may be sliced. -/
def Sliced.row {ts : List Ty} (c : Sliced ts) (i : Nat) : Res (Vals ts) := views ts c.cols i

/-- A chunk with FLAT columns, to slice and to append from. -/
def Chunk.all {ts : List Ty} (c : Chunk ts) : Sliced ts := ⟨flats ts c.cols, c.count⟩

/-- `data_chunk_t::slice` (components/vector/data_chunk.cpp:187-212). -/
def Sliced.slice {ts : List Ty} (c : Sliced ts) (sel : List Nat) (n : Nat) : Res (Sliced ts) :=
  (slices ts c.cols sel n).bind fun v => .ok ⟨v, n⟩

/-- `data_chunk_t::slice` from an offset on (components/vector/data_chunk.cpp:214-221). -/
def Sliced.part {ts : List Ty} (c : Sliced ts) (off n : Nat) : Res (Sliced ts) := c.slice ((List.range n).map (off + ·)) n

/-- The columns grow (components/vector/data_chunk.cpp:142-144). -/
def resizes : (ts : List Ty) → (old new : Nat) → Vecs ts → Res (Vecs ts)
  | [], _, _, _ => .ok ()
  | t :: ts, old, new, v => (resize t old new v.1).bind fun a => (resizes ts old new v.2).bind fun b => .ok (a, b)

/-- The rows to take: those the indexes pick, or all of them (components/vector/data_chunk.cpp:67-91, 128-159). -/
def howMany (sel : Option (List Nat)) (selCount count : Nat) : Nat :=
  match sel with
  | some _ => selCount
  | none => count

/-- `data_chunk_t::append` of the rows `sel` picks, or all of them (components/vector/data_chunk.cpp:128-159). -/
def Chunk.append {ts : List Ty} (c : Chunk ts) (o : Sliced ts) (mayGrow : Bool) (sel : Option (List Nat)) (selCount : Nat) : Res (Chunk ts) :=
  let n := howMany sel selCount o.count
  if o.count = 0 then .ok c
  else if c.cap < c.count + n then
    if mayGrow then (resizes ts c.count (nextPow2 (c.count + n)) c.cols).bind fun v =>
      (copies ts o.cols v sel n 0 c.count n).bind fun w => .ok ⟨w, c.count + n, nextPow2 (c.count + n)⟩
    else .throws
  else (copies ts o.cols c.cols sel n 0 c.count n).bind fun w => .ok { c with cols := w, count := c.count + n }

/-- `data_chunk_t::copy` into an empty chunk (components/vector/data_chunk.cpp:67-91). -/
def Sliced.copyTo {ts : List Ty} (o : Sliced ts) (c : Chunk ts) (sel : Option (List Nat)) (selCount off : Nat) : Res (Chunk ts) :=
  let n := howMany sel selCount o.count
  (copies ts o.cols c.cols sel n off 0 (n - off)).bind fun w => .ok { c with cols := w, count := n - off }

/-- `data_chunk_t::reset` (components/vector/data_chunk.cpp:27-33): the capacity is set to the default one, whatever the columns have
room for. -/
def Chunk.reset {ts : List Ty} (c : Chunk ts) : Chunk ts := if ts = [] then c else { c with count := 0, cap := 1024 }

end Verif.VecVal
