import Verif.NestCol.Model
import Verif.Table.Spec
import Mathlib.Data.List.Forall2
/-!
What a nested column is for: a list of values. This file speaks of types, of vectors as their users
build them and of the values in them; it does not mention columns except for their size.
-/
namespace Verif.NestCol
open Verif
open Verif.Table

variable {α : Type}

/-- The rows `idx` of a vector have the values `xs`. -/
def Shows (v : NVec α) (idx : List Nat) (xs : List (NVal α)) : Prop :=
  List.Forall₂ (fun i x => v.value i = .ok x) idx xs

mutual
/-- A vector of a type: lists name elements their child has, arrays have their elements, the fields
of a struct have the rows of the struct. -/
def NVec.Has : NTy α → NVec α → Prop
  | .prim _, .prim _ => True
  | .list t, .list rows c => NVec.Has t c ∧ ∀ o n, some (o, n) ∈ rows → o + n ≤ c.len
  | .array k t, .array k' valid c => k' = k ∧ NVec.Has t c ∧ c.len = valid.length * k
  | .struct ts, .struct valid fs => NVecs.Has ts fs valid.length
  | _, _ => False
def NVecs.Has : NTys α → NVecs α → Nat → Prop
  | .nil, .nil, _ => True
  | .cons t ts, .cons v vs, n => NVec.Has t v ∧ v.len = n ∧ NVecs.Has ts vs n
  | _, _, _ => False
end

mutual
/-- Types a table accepts: segments of the elements have room, arrays have elements, structs have
fields. -/
def NTy.Ok : NTy α → Prop
  | .prim ty => ty.Ok
  | .list t => t.Ok
  | .array k t => 0 < k ∧ t.Ok
  | .struct ts => ts ≠ .nil ∧ ts.Ok
def NTys.Ok : NTys α → Prop
  | .nil => True
  | .cons t ts => t.Ok ∧ ts.Ok
end

mutual
/-- The type is an array, or a struct with such a field. -/
def NTy.hasArray : NTy α → Bool
  | .prim _ => false
  | .list _ => false
  | .array _ _ => true
  | .struct ts => ts.hasArray
def NTys.hasArray : NTys α → Bool
  | .nil => false
  | .cons t ts => t.hasArray || ts.hasArray
end

mutual
/-- No list has arrays as its elements (or structs with arrays). -/
def NTy.plainLists : NTy α → Prop
  | .prim _ => True
  | .list t => t.hasArray = false ∧ t.plainLists
  | .array _ t => t.plainLists
  | .struct ts => ts.plainLists
def NTys.plainLists : NTys α → Prop
  | .nil => True
  | .cons t ts => t.plainLists ∧ ts.plainLists
end

mutual
/-- No array has arrays as its elements (or structs with arrays). -/
def NTy.plainArrays : NTy α → Prop
  | .prim _ => True
  | .list t => t.plainArrays
  | .array _ t => t.hasArray = false ∧ t.plainArrays
  | .struct ts => ts.plainArrays
def NTys.plainArrays : NTys α → Prop
  | .nil => True
  | .cons t ts => t.plainArrays ∧ ts.plainArrays
end

/-- A batch of rows for a column of type `t`, with their values. -/
structure Batch (t : NTy α) (b : NVec α × Sel) (xs : List (NVal α)) : Prop where
  has : b.1.Has t
  inside : ∀ i ∈ b.2.idx, i < b.1.len
  shows : Shows b.1 b.2.idx xs

/-- The rows are handed over in a DICTIONARY vector. -/
def Sel.isDict : Sel → Bool
  | .flat _ => false
  | .dict _ => true

mutual
/-- No part of the column has `2^62` rows. -/
def NCol.Small : NCol α → Prop
  | .prim s => s.data.start + s.data.count < 2 ^ 62
  | .list a offs _ child => a + offs.count < 2 ^ 62 ∧ child.Small
  | .array _ a n _ child => a + n < 2 ^ 62 ∧ child.Small
  | .struct a n _ fs => a + n < 2 ^ 62 ∧ fs.Small
def NCols.Small : NCols α → Prop
  | .nil => True
  | .cons c cs => c.Small ∧ cs.Small
end

end Verif.NestCol
