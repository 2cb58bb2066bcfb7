import Verif.Arrow.Model
import Verif.NestCol.Spec
/-!
What the Arrow columnar format says the rows of an array are, and which vectors and arrays are well
formed. This file does not mention how arrays are written or read.
-/
namespace Verif.Arrow
open Verif
open Verif.Table (Cell)
open Verif.NestCol

/-- A row is NULL if its bit in the validity buffer is not set; `p` counts from the start of the
buffer. -/
def Hdr.valid (h : Hdr) (p : Nat) : Bool :=
  match h.bits with
  | none => true
  | some bs => getBit bs p != some false

/-- A row: NULL, or what is there. -/
def orNull (b : Bool) (x : Res (NVal Datum)) : Res (NVal Datum) := if b then x else .ok .null

mutual
/-- Row `i` of an array, after the Arrow columnar format: all buffers are read `offset` rows further
on; the elements of a list lie between two neighbouring offsets; row `p` of an array of `k` elements
owns the rows `p * k` to `p * k + k - 1` of the child; a field of a struct has its own offset on top of
that of the struct. `.ub` says that there is no such row. -/
def AArr.value : ATy → AArr → Nat → Res (NVal Datum)
  | .num, .num h vals, i => orNull (h.valid (h.off + i))
      (match vals[h.off + i]? with
      | none => .ub
      | some x => .ok (.prim (.num x)))
  | .bool, .bool h data, i => orNull (h.valid (h.off + i))
      (match getBit data (h.off + i) with
      | none => .ub
      | some b => .ok (.prim (.bool b)))
  | .str, .str h offs chars, i => orNull (h.valid (h.off + i))
      (match offs[h.off + i]?, offs[h.off + i + 1]? with
      | some a, some b => .ok (.prim (.str ((chars.drop a).take (b - a))))
      | _, _ => .ub)
  | .list t, .list h offs child, i => orNull (h.valid (h.off + i))
      (match offs[h.off + i]?, offs[h.off + i + 1]? with
      | some a, some b => (collect (AArr.value t child) a (b - a)).map' .list
      | _, _ => .ub)
  | .array k t, .array h child, i => orNull (h.valid (h.off + i))
      ((collect (AArr.value t child) ((h.off + i) * k) k).map' .array)
  | .struct ts, .struct h cs, i => orNull (h.valid (h.off + i)) ((AArrs.values ts cs (h.off + i)).map' .struct)
  | t, .dict h idx values, i => orNull (h.valid (h.off + i))
      (match idx[h.off + i]? with
      | none => .ub
      | some j => AArr.value t values j)
  | _, _, _ => .ub
def AArrs.values : ATys → AArrs → Nat → Res (List (NVal Datum))
  | .nil, .nil, _ => .ok []
  | .cons t ts, .cons a as, i => (AArr.value t a i).bind fun x => (AArrs.values ts as i).map' fun xs => x :: xs
  | _, _, _ => .ub
end

/-- The header of a well-formed array: the validity buffer has a bit for every row, and an array that
says it has no NULL rows has none. -/
structure Hdr.Wf (h : Hdr) : Prop where
  room : ∀ bs, h.bits = some bs → (h.off + h.len + 7) / 8 ≤ bs.length
  none : h.nulls = 0 → ∀ i < h.len, h.valid (h.off + i) = true

/-- Offsets of `n` rows from row `o` on that grow and end at `limit` at the most. -/
def OffsetsOk (offs : List Nat) (o n limit : Nat) : Prop :=
  n = 0 ∨ (o + n + 1 ≤ offs.length ∧ (∀ i, i < n → ∃ a b, offs[o + i]? = some a ∧ offs[o + i + 1]? = some b ∧ a ≤ b) ∧
    ∃ z, offs[o + n]? = some z ∧ z ≤ limit)

mutual
/-- A well-formed array of a type: all buffers and children have the rows of the array, offsets grow.
List offsets are 32 bits wide; strings are shorter than 4 GB. -/
def AArr.Wf : ATy → AArr → Prop
  | .num, .num h vals => h.Wf ∧ h.off + h.len ≤ vals.length
  | .bool, .bool h data => h.Wf ∧ h.off + h.len ≤ 8 * data.length
  | .str, .str h offs chars => h.Wf ∧ OffsetsOk offs h.off h.len chars.length ∧
      ∀ i < h.len, ∀ a b, offs[h.off + i]? = some a → offs[h.off + i + 1]? = some b → b - a < 2 ^ 32
  | .list t, .list h offs child => h.Wf ∧ OffsetsOk offs h.off h.len child.hdr.len ∧ child.hdr.len < 2 ^ 31 ∧ child.Wf t
  | .array k t, .array h child => h.Wf ∧ (h.off + h.len) * k ≤ child.hdr.len ∧ child.Wf t
  | .struct ts, .struct h cs => h.Wf ∧ cs.Wf ts (h.off + h.len)
  | _, _ => False
def AArrs.Wf : ATys → AArrs → Nat → Prop
  | .nil, .nil, _ => True
  | .cons t ts, .cons a as, n => a.Wf t ∧ n ≤ a.hdr.len ∧ as.Wf ts n
  | _, _, _ => False
end

/-- The validity buffer has a byte of padding behind the last row, as the format recommends. -/
def Hdr.padded (h : Hdr) : Prop := ∀ bs, h.bits = some bs → (h.off + h.len + 7) / 8 + 1 ≤ bs.length

mutual
/-- All validity buffers in the array are padded. -/
def AArr.padded : AArr → Prop
  | .num h _ => h.padded
  | .bool h _ => h.padded
  | .str h _ _ => h.padded
  | .list h _ c => h.padded ∧ c.padded
  | .array h c => h.padded ∧ c.padded
  | .struct h cs => h.padded ∧ cs.padded
  | .dict h _ c => h.padded ∧ c.padded
def AArrs.padded : AArrs → Prop
  | .nil => True
  | .cons a as => a.padded ∧ as.padded
end

mutual
/-- No part of the array has an offset; lists begin with the first element of the child. -/
def AArr.whole : AArr → Prop
  | .num h _ => h.off = 0
  | .bool h _ => h.off = 0
  | .str h _ _ => h.off = 0
  | .list h offs c => h.off = 0 ∧ offs.head? = some 0 ∧ c.whole
  | .array h c => h.off = 0 ∧ c.whole
  | .struct h cs => h.off = 0 ∧ cs.whole
  | .dict h _ c => h.off = 0 ∧ c.whole
def AArrs.whole : AArrs → Prop
  | .nil => True
  | .cons a as => a.whole ∧ as.whole
end

mutual
/-- No struct in the array has an offset. -/
def AArr.noOffset : AArr → Prop
  | .num _ _ => True
  | .bool _ _ => True
  | .str _ _ _ => True
  | .list _ _ c => c.noOffset
  | .array _ c => c.noOffset
  | .struct h cs => h.off = 0 ∧ cs.noOffset
  | .dict _ _ c => c.noOffset
def AArrs.noOffset : AArrs → Prop
  | .nil => True
  | .cons a as => a.noOffset ∧ as.noOffset
end

/-- No field is itself a struct. -/
def ATys.noStruct : ATys → Prop
  | .nil => True
  | .cons (.struct _) _ => False
  | .cons _ ts => ts.noStruct

mutual
/-- The type is an array, or a struct with such a field. -/
def ATy.hasArray : ATy → Bool
  | .num => false
  | .bool => false
  | .str => false
  | .list _ => false
  | .array _ _ => true
  | .struct ts => ts.hasArray
def ATys.hasArray : ATys → Bool
  | .nil => false
  | .cons t ts => t.hasArray || ts.hasArray
end

mutual
/-- No list has arrays as its elements (or structs with arrays). -/
def ATy.plainLists : ATy → Prop
  | .num => True
  | .bool => True
  | .str => True
  | .list t => t.hasArray = false ∧ t.plainLists
  | .array _ t => t.plainLists
  | .struct ts => ts.plainLists
def ATys.plainLists : ATys → Prop
  | .nil => True
  | .cons t ts => t.plainLists ∧ ts.plainLists
end

/-- A cell of a type; strings are shorter than 4 GB. -/
def IsNum : Cell Datum → Prop
  | none => True
  | some (.num _) => True
  | _ => False
def IsBool : Cell Datum → Prop
  | none => True
  | some (.bool _) => True
  | _ => False
def IsStr : Cell Datum → Prop
  | none => True
  | some (.str s) => s.length < 2 ^ 32
  | _ => False

mutual
/-- A vector of a type: lists name elements their child has, arrays have their elements, the fields
of a struct have the rows of the struct, and no child has more than `2^32` rows. -/
def Vec : ATy → NVec Datum → Prop
  | .num, .prim cs => ∀ c ∈ cs, IsNum c
  | .bool, .prim cs => ∀ c ∈ cs, IsBool c
  | .str, .prim cs => ∀ c ∈ cs, IsStr c
  | .list t, .list rows c => Vec t c ∧ c.len ≤ 2 ^ 32 ∧ ∀ o n, some (o, n) ∈ rows → o + n ≤ c.len
  | .array k t, .array k' valid c => k' = k ∧ Vec t c ∧ c.len = valid.length * k
  | .struct ts, .struct valid fs => Vecs ts fs valid.length
  | _, _ => False
def Vecs : ATys → NVecs Datum → Nat → Prop
  | .nil, .nil, _ => True
  | .cons t ts, .cons v vs, n => Vec t v ∧ v.len = n ∧ Vecs ts vs n
  | _, _, _ => False
end

/-- The elements the rows `idx` of a list vector have together. -/
def elemsOf (rows : List (Option (Nat × Nat))) (idx : List Nat) : List Nat :=
  gather (idx.filterMap fun i => rows[i]?)

mutual
/-- Wherever lists are handed over, they have fewer than `2^31` elements together. -/
def Fits : NVec Datum → List Nat → Prop
  | .prim _, _ => True
  | .list rows c, idx => (elemsOf rows idx).length < 2 ^ 31 ∧ Fits c (elemsOf rows idx)
  | .array k _ c, idx => Fits c (idx.flatMap fun i => List.range' (i * k) k)
  | .struct _ fs, idx => FitsAll fs idx
def FitsAll : NVecs Datum → List Nat → Prop
  | .nil, _ => True
  | .cons v vs, idx => Fits v idx ∧ FitsAll vs idx
end

end Verif.Arrow
