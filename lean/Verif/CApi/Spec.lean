import Verif.CApi.Model
import Verif.Oid.Spec
import Verif.PhysKey.Spec
/-!
What a C program may expect: which handles it holds, what each call gives it and which handles it holds then.
-/
namespace Verif.CApi

open Verif.DocVal Verif.Num Verif.PhysKey Verif.LogVal

/-- An answer being walked through: its documents (nothing if it consists of rows), how many were asked for so far. -/
structure Walk where
  space : Nat
  docs : Option (List (Option Json.Node))
  size : Nat
  asked : Nat
  success : Bool
  code : Int
  what : Bytes

/-- What the program holds: databases, cursors, documents; what it released is `false` or `none`. -/
structure View where
  spaces : List Bool
  curs : List (Option Walk)
  docs : List (Option DocObj)

def View.start : View := ⟨[], [], []⟩

/-- The program holds the database. -/
def View.HasSpace (v : View) (h : Nat) : Prop := v.spaces[h]? = some true

/-- It holds the cursor, and the database it came from. -/
def View.HasCursor (v : View) (h : Nat) (w : Walk) : Prop := v.curs[h]? = some (some w) ∧ v.HasSpace w.space

/-- It holds the document, and the database it came from. -/
def View.HasDoc (v : View) (h : Nat) (d : DocObj) : Prop := v.docs[h]? = some (some d) ∧ v.HasSpace d.space

/-- It holds the document, and there is one. -/
def View.HasTree (v : View) (h : Nat) (n : Json.Node) : Prop := ∃ d, v.HasDoc h d ∧ d.node = some n

/-- A new document handle. -/
def View.plus (v : View) (space : Nat) (n : Option Json.Node) : View := { v with docs := v.docs ++ [some ⟨space, n⟩] }

/-- A new answer. -/
def Answer.walk (h : Nat) : Answer → Walk
  | .documents ds => ⟨h, some ds, ds.length, 0, true, 0, []⟩
  | .rows n => ⟨h, none, n, 0, true, 0, []⟩
  | .status b => ⟨h, some [], 0, 0, b, 0, []⟩
  | .error c w => ⟨h, some [], 0, 0, false, c, w⟩

/-- The place named by a key or an index: a key is a path, or a single name written as it is; an index is of an array. -/
def Names (n : Json.Node) (l : Json.Loc) : Path → Prop
  | .key k => Json.Fits n l ∧ (k = Json.pointer l ∨ (k ≠ [] ∧ Json.slash ∉ k ∧ Json.tilde ∉ k ∧ l = [.name k]))
  | .index i => 0 ≤ i ∧ i < 2 ^ 31 ∧ Json.seen n [] = some .array ∧ l = [.index i.toNat]

/-- What is at the place named. -/
def At (n : Json.Node) (p : Path) (o : Option Json.Node) : Prop := ∃ l, Names n l p ∧ Json.reach n l = o

/-- Whether there is an integer, and whether it is one of a type; for floating point numbers it is left open. -/
def integer (t : ITy) : Option Json.Node → Option Bool
  | some (.leaf (.int _ v)) => some (decide (t.fits v))
  | some (.leaf (.big v)) => some (decide (t.fits v))
  | some (.leaf (.float _)) => none
  | some (.leaf (.double _)) => none
  | _ => some false

/-- The answer to a question about what is at a place. -/
def holds : Kind → Option Json.Node → Option Bool
  | .exist, o => some o.isSome
  | .null, some (.leaf .na) => some true
  | .bool, some (.leaf (.bool _)) => some true
  | .string, some (.leaf (.str _)) => some true
  | .array, some (.arr _) => some true
  | .dict, some (.obj _) => some true
  | .double, some (.leaf (.int _ _)) => some true
  | .double, some (.leaf (.big _)) => some true
  | .double, some (.leaf (.float _)) => some true
  | .double, some (.leaf (.double _)) => some true
  | .long, o => integer .i64 o
  | .ulong, o => integer .u64 o
  | _, _ => some false

/-- The truth value at a place, otherwise false. -/
def boolOf : Option Json.Node → Bool
  | some (.leaf (.bool b)) => b
  | _ => false

/-- The integer of a type at a place, 0 if there is none; for floating point numbers it is left open. -/
def intOf (t : ITy) : Option Json.Node → Option Int
  | some (.leaf (.int _ v)) => some (if t.fits v then v else 0)
  | some (.leaf (.big v)) => some (if t.fits v then v else 0)
  | some (.leaf (.float _)) => none
  | some (.leaf (.double _)) => none
  | _ => some 0

/-- The number at a place, 0 if there is none; integers that are no floating point numbers are left open. -/
def doubleOf : Option Json.Node → Option FVal
  | some (.leaf (.int _ v)) => if v.natAbs < 2 ^ 53 then some (.fin (v * one)) else none
  | some (.leaf (.big v)) => if v.natAbs < 2 ^ 53 then some (.fin (v * one)) else none
  | some (.leaf (.float b)) => some (decode32 b)
  | some (.leaf (.double b)) => some (decode64 b)
  | _ => some (.fin 0)

/-- The text at a place, otherwise the empty one. -/
def textOf : Option Json.Node → Bytes
  | some (.leaf (.str s)) => s
  | _ => []

/-- The array, or the object, at a place. -/
def arrayOf : Option Json.Node → Option Json.Node
  | some (.arr xs) => some (.arr xs)
  | _ => none

def dictOf : Option Json.Node → Option Json.Node
  | some (.obj fs) => some (.obj fs)
  | _ => none

/-- The number of fields or elements. -/
def sizeOf : Json.Node → Nat
  | .obj fs => fs.length
  | .arr xs => xs.length
  | _ => 0

/-- The text `_id`. -/
def idName : Bytes := [95, 105, 100]

instance (s : Bytes) : Decidable (Oid.Hex24 s) := by unfold Oid.Hex24; infer_instance

/-- The text of an identifier, 24 zeros if it is none. -/
def identText (s : Bytes) : Bytes := if Oid.Hex24 s then Oid.lower s else List.replicate 24 48

/-- The identifier in the field `_id`. -/
def ident (n : Json.Node) : Bytes := identText (textOf (Json.reach n [.name idName]))

/-- What a call gives, `r`, and what the program holds then, `v'`. -/
def Step (v : View) (c : Call) (r : Ret) (v' : View) : Prop :=
  match c with
  | .create => r = .handle v.spaces.length ∧ v' = { v with spaces := v.spaces ++ [true] }
  | .destroy h => v.HasSpace h ∧ r = .nothing ∧ v' = { v with spaces := v.spaces.set h false }
  | .execute h a => v.HasSpace h ∧ r = .handle v.curs.length ∧ v' = { v with curs := v.curs ++ [some (a.walk h)] }
  | .releaseCursor h => ∃ w, v.HasCursor h w ∧ r = .nothing ∧ v' = { v with curs := v.curs.set h none }
  | .size h => ∃ w, v.HasCursor h w ∧ r = .int w.size ∧ v' = v
  | .hasNext h => ∃ w, v.HasCursor h w ∧ r = .bool (decide (w.asked < w.size)) ∧ v' = v
  | .next h => ∃ w ds, v.HasCursor h w ∧ w.docs = some ds ∧ r = .handle v.docs.length ∧
      v' = ({ v with curs := v.curs.set h (some { w with asked := w.asked + 1 }) } : View).plus w.space (ds[w.asked]?.join)
  | .get h => ∃ w ds, v.HasCursor h w ∧ w.docs = some ds ∧ r = .handle v.docs.length ∧ v' = v.plus w.space (ds[w.asked - 1]?.join)
  | .getByIndex h i => ∃ w ds, v.HasCursor h w ∧ w.docs = some ds ∧ r = .handle v.docs.length ∧
      v' = v.plus w.space (if 0 ≤ i then ds[i.toNat]?.join else none)
  | .isSuccess h => ∃ w, v.HasCursor h w ∧ r = .bool w.success ∧ v' = v
  | .isError h => ∃ w, v.HasCursor h w ∧ r = .bool (!w.success) ∧ v' = v
  | .getError h => ∃ w, v.HasCursor h w ∧ r = .error w.code w.what ∧ v' = v
  | .releaseDocument h => ∃ d, v.HasDoc h d ∧ r = .nothing ∧ v' = { v with docs := v.docs.set h none }
  | .isValid h => ∃ d, v.HasDoc h d ∧ r = .bool d.node.isSome ∧ v' = v
  | .id h => ∃ n, v.HasTree h n ∧ r = .text (ident n) ∧ v' = v
  | .isArray h => ∃ n, v.HasTree h n ∧ r = .bool (decide (Json.seen n [] = some .array)) ∧ v' = v
  | .isDict h => ∃ n, v.HasTree h n ∧ r = .bool (decide (Json.seen n [] = some .object)) ∧ v' = v
  | .count h => ∃ n, v.HasTree h n ∧ r = .int (sizeOf n) ∧ v' = v
  | .is k h p => ∃ n o b, v.HasTree h n ∧ At n p o ∧ holds k o = some b ∧ r = .bool b ∧ v' = v
  | .getBool h p => ∃ n o, v.HasTree h n ∧ At n p o ∧ r = .bool (boolOf o) ∧ v' = v
  | .getUlong h p => ∃ n o i, v.HasTree h n ∧ At n p o ∧ intOf .u64 o = some i ∧ r = .int i ∧ v' = v
  | .getLong h p => ∃ n o i, v.HasTree h n ∧ At n p o ∧ intOf .i64 o = some i ∧ r = .int i ∧ v' = v
  | .getDouble h p => ∃ n o f, v.HasTree h n ∧ At n p o ∧ doubleOf o = some f ∧ r = .double f ∧ v' = v
  | .getString h p => ∃ n o, v.HasTree h n ∧ At n p o ∧ r = .text (textOf o) ∧ v' = v
  | .getArray h p => ∃ d n o, v.HasDoc h d ∧ d.node = some n ∧ At n p o ∧ r = .handle v.docs.length ∧ v' = v.plus d.space (arrayOf o)
  | .getDict h p => ∃ d n o, v.HasDoc h d ∧ d.node = some n ∧ At n p o ∧ r = .handle v.docs.length ∧ v' = v.plus d.space (dictOf o)

/-- A program using only handles it holds, every call of which satisfies `ok`, and the results it may expect. -/
inductive Goes (ok : View → Call → Prop) : View → List Call → List Ret → Prop where
  | nil (v : View) : Goes ok v [] []
  | cons (v v' : View) (c : Call) (r : Ret) (cs : List Call) (rs : List Ret) (hs : Step v c r v') (hk : ok v c) (ht : Goes ok v' cs rs) :
      Goes ok v (c :: cs) (r :: rs)

/-- A text that fits into a buffer of `cap` bytes with a zero behind it, and contains none. -/
def Short (cap : Nat) (s : Bytes) : Prop := (0 : UInt8) ∉ s ∧ s.length < cap

/-- An integer as its type has it; for `u64` not a negative one of 8 bits or one that does not fit. -/
def Sound (t : ITy) : Option Json.Node → Prop
  | some (.leaf (.int s v)) => s.fits v ∧ (t = .u64 → s = .i8 → 0 ≤ v)
  | some (.leaf (.big v)) => t = .u64 → v < 2 ^ 64
  | _ => True

/-- The calls the code gets right: at most 2^31 - 2 documents, no text of 40 bytes, no error message of 32 bytes, no zero
in either, and no question about a document that is not there. -/
def Safe (v : View) : Call → Prop
  | .size h => ∀ w, v.HasCursor h w → w.size < 2 ^ 31
  | .hasNext h => ∀ w, v.HasCursor h w → w.asked < 2 ^ 31 - 1
  | .next h => ∀ w, v.HasCursor h w → w.asked < 2 ^ 31 - 1
  | .getByIndex h i => -2 ^ 31 ≤ i ∧ i < 2 ^ 31 ∧ ∀ w, v.HasCursor h w → w.size < 2 ^ 63
  | .getError h => ∀ w, v.HasCursor h w → Short 32 w.what ∧ -2 ^ 31 ≤ w.code ∧ w.code < 2 ^ 31
  | .isValid h => ∃ n, v.HasTree h n
  | .id h => ∀ n, v.HasTree h n → Json.Fits n [.name idName]
  | .count h => ∀ n, v.HasTree h n → sizeOf n < 2 ^ 31
  | .is .ulong h p => ∀ n o, v.HasTree h n → At n p o → Sound .u64 o
  | .is .long h p => ∀ n o, v.HasTree h n → At n p o → Sound .i64 o
  | .getUlong h p => ∀ n o, v.HasTree h n → At n p o → Sound .u64 o
  | .getLong h p => ∀ n o, v.HasTree h n → At n p o → Sound .i64 o
  | .getString h p => ∀ n o, v.HasTree h n → At n p o → Short 40 (textOf o)
  | _ => True

end Verif.CApi
