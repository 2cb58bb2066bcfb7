import Verif.Base.Res
/-!
Model of the columns of a data chunk (components/vector): values of scalar, string, list, array and struct types written into a
column and read from it, growth of a column, slices by an indexing vector, copies and appends.

Simplifications, for the whole file:
* a validity mask is a function of the row; its words (components/vector/validation.cpp) are modelled in Verif/Validity.  It is
  never shorter than the data it belongs to: the constructor, `resize` and the copies size it together with the data, a word for
  every row (validation.cpp 5-12).
* a string is its text: the heap it is copied into (components/vector/vector_buffer.cpp 27-37) never moves or frees it.
* data that has been allocated and not written is `none`; reading it, or a row past the end, is undefined behaviour.
* constant and sequence vectors (`vector_type::CONSTANT`, `SEQUENCE`), maps and unions are not modelled.
-/
namespace Verif.VecVal

/-- The logical types of a column that is not nested (components/types/types.hpp:75-124).  `timestamp` stands for the four
TIMESTAMP types, `decimal` for the types `complex_logical_type::size` has no case for: HUGEINT, UHUGEINT, DECIMAL, BLOB, INTERVAL,
UUID.  NA, BIT, VALIDITY, POINTER and the types of expressions are left out. -/
inductive Kind where
  | boolean | tinyint | smallint | integer | bigint | utinyint | usmallint | uinteger | ubigint | float | double | string
  | timestamp | decimal
  deriving DecidableEq, Repr

/-- What one row of such a column holds: the members of `logical_value_t`'s variant (components/types/logical_value.hpp).  Floating
point numbers are their bits. -/
@[reducible] def Kind.Carrier : Kind → Type
  | .boolean => Bool
  | .tinyint => BitVec 8
  | .smallint => BitVec 16
  | .integer => BitVec 32
  | .bigint => BitVec 64
  | .utinyint => BitVec 8
  | .usmallint => BitVec 16
  | .uinteger => BitVec 32
  | .ubigint => BitVec 64
  | .float => BitVec 32
  | .double => BitVec 64
  | .string => List Char
  | .timestamp => BitVec 64
  | .decimal => BitVec 64

/-- Zeroed memory read as a value (components/vector/vector.cpp:93-95); a zero string_view is the empty string. -/
def Kind.zero : (k : Kind) → k.Carrier
  | .boolean => false
  | .tinyint => 0
  | .smallint => 0
  | .integer => 0
  | .bigint => 0
  | .utinyint => 0
  | .usmallint => 0
  | .uinteger => 0
  | .ubigint => 0
  | .float => 0
  | .double => 0
  | .string => []
  | .timestamp => 0
  | .decimal => 0

/-- `complex_logical_type::size` has a case for the type (components/types/types.cpp:124-169); without one control reaches the end of
a function that returns a value. -/
def Kind.sized : Kind → Bool
  | .decimal => false
  | _ => true

/-- `vector_t::set_value` and `vector_ops::copy` have a case for the type (components/vector/vector.cpp:433-545,
components/vector/vector_operations.cpp:629-827). -/
def Kind.handled : Kind → Bool
  | .decimal => false
  | .timestamp => false
  | _ => true

/-- A column's type (components/types/types.hpp, `complex_logical_type`): LIST has a child type, ARRAY a child type and the number of
elements, STRUCT the types of its fields; names are left out. -/
inductive Ty where
  | leaf (k : Kind)
  | list (t : Ty)
  | array (t : Ty) (n : Nat)
  | struct (ts : List Ty)

mutual
/-- A value of a type, `none` for NULL (components/types/logical_value.hpp).  The children of an ARRAY value are a vector of any
length. -/
@[reducible] def Val : Ty → Type
  | .leaf k => Option k.Carrier
  | .list t => Option (List (Val t))
  | .array t _ => Option (List (Val t))
  | .struct ts => Option (Vals ts)
/-- A value for each type. -/
@[reducible] def Vals : List Ty → Type
  | [] => Unit
  | t :: ts => Val t × Vals ts
end

/-- NULL of any type: `logical_value_t()` (components/vector/vector.cpp:502, 517, 537). -/
def null : (t : Ty) → Val t
  | .leaf _ => none
  | .list _ => none
  | .array _ _ => none
  | .struct _ => none

/-- The rows of a FLAT vector with payload: `validity_`, `data_` and the number of rows allocated for `data_`. -/
structure Rows (α : Type) where
  valid : Nat → Bool
  data : Nat → Option α
  cap : Nat

/-- A LIST vector: its entries (offset and length), the child vector, `capacity_` and `size_` of the list buffer
(components/vector/vector_buffer.hpp, `list_vector_buffer_t`). -/
structure Lists (V : Type) where
  rows : Rows (Nat × Nat)
  child : V
  ccap : Nat
  size : Nat

/-- An ARRAY vector: no payload of its own; `sz` is `size_` of the array buffer, the capacity it was created with
(components/vector/vector_buffer.cpp:131-142). -/
structure Arrays (V : Type) where
  valid : Nat → Bool
  child : V
  sz : Nat

/-- A STRUCT vector: no payload of its own. -/
structure Structs (V : Type) where
  valid : Nat → Bool
  children : V

mutual
/-- A FLAT vector of a type (components/vector/vector.hpp). -/
@[reducible] def Vec : Ty → Type
  | .leaf k => Rows k.Carrier
  | .list t => Lists (Vec t)
  | .array t _ => Arrays (Vec t)
  | .struct ts => Structs (Vecs ts)
/-- A vector for each type. -/
@[reducible] def Vecs : List Ty → Type
  | [] => Unit
  | t :: ts => Vec t × Vecs ts
end

/-- `complex_logical_type::contains` with STRUCT or ARRAY: `struct_or_array_recursive` (components/vector/vector.cpp:409-413). -/
def hasSA : Ty → Bool
  | .leaf _ => false
  | .list t => hasSA t
  | .array _ _ => true
  | .struct _ => true

/-- Fresh rows: all valid, data zeroed. -/
def Rows.new {α : Type} (zero : α) (cap : Nat) : Rows α := ⟨fun _ => true, fun i => if i < cap then some zero else none, cap⟩

mutual
/-- The constructor of a vector (components/vector/vector.cpp:62-100, components/vector/vector_buffer.cpp:63-73, 87-93, 131-142). -/
def make : (t : Ty) → Nat → Vec t
  | .leaf k, c => Rows.new k.zero c
  | .list t, c => ⟨Rows.new (0, 0) c, make t c, c, 0⟩
  | .array t n, c => ⟨fun _ => true, make t (c * n), c⟩
  | .struct ts, c => ⟨fun _ => true, makes ts c⟩
/-- Of a vector for each type. -/
def makes : (ts : List Ty) → Nat → Vecs ts
  | [], _ => ()
  | t :: ts, c => (make t c, makes ts c)
end

mutual
/-- Every type in it has a size. -/
def sized : Ty → Bool
  | .leaf k => k.sized
  | .list t => sized t
  | .array t _ => sized t
  | .struct ts => sizeds ts
/-- All of them. -/
def sizeds : List Ty → Bool
  | [] => true
  | t :: ts => sized t && sizeds ts
end

/-! ### Growth -/

/-- `vector_t::resize` of one buffer (components/vector/vector.cpp:378-396): what fits of the first `old` rows is copied into a new
buffer of `new` rows that is not initialised. -/
def Rows.resize {α : Type} (r : Rows α) (old new : Nat) : Res (Rows α) :=
  if min old new ≤ r.cap then .ok ⟨r.valid, fun j => if j < min old new then r.data j else none, new⟩ else .ub

mutual
/-- `vector_t::find_resize_infos` and the loop of `resize` (components/vector/vector.cpp:294-328, 378-397): a vector with data of its own
is resized and its children are not; the multiplier of an array's child is the capacity the array was created with. -/
def grow : (t : Ty) → (mult old new : Nat) → Vec t → Res (Vec t)
  | .leaf _, m, old, new, v => Rows.resize v (old * m) (new * m)
  | .list _, m, old, new, v => (v.rows.resize (old * m) (new * m)).bind fun r => .ok { v with rows := r }
  | .array t _, m, old, new, v => (grow t (v.sz * m) old new v.child).bind fun c => .ok { v with child := c }
  | .struct ts, m, old, new, v => (grows ts m old new v.children).bind fun c => .ok { v with children := c }
/-- Of the fields of a struct. -/
def grows : (ts : List Ty) → (mult old new : Nat) → Vecs ts → Res (Vecs ts)
  | [], _, _, _, _ => .ok ()
  | t :: ts, m, old, new, v => (grow t m old new v.1).bind fun a => (grows ts m old new v.2).bind fun b => .ok (a, b)
end

/-- `vector_t::resize` (components/vector/vector.cpp:366-397). -/
def resize (t : Ty) (old new : Nat) (v : Vec t) : Res (Vec t) := if old = new then .ok v else grow t 1 old new v

/-! ### Writing -/

/-- A validity bit is set (components/vector/validation.cpp:145-164). -/
def mark (f : Nat → Bool) (i : Nat) (b : Bool) : Nat → Bool := fun j => if j = i then b else f j

/-- A row of the data is written. -/
def Rows.write {α : Type} (r : Rows α) (i : Nat) (a : α) : Res (Rows α) :=
  if i < r.cap then .ok { r with data := fun j => if j = i then some a else r.data j } else .ub

/-- The loop of `list_vector_buffer_t::push_back` that doubles the capacity (components/vector/vector_buffer.cpp:124-128); it never ends
if the capacity is 0. -/
def double {V : Type} (rs : Nat → Nat → V → Res V) (need c : Nat) (v : V) : Res (V × Nat) :=
  if need ≤ c then .ok (v, c) else if c = 0 then .diverges else (rs c (c * 2) v).bind fun v' => double rs need (c * 2) v'
termination_by need - c

/-- `list_vector_buffer_t::push_back` of the elements in turn (components/vector/vector_buffer.cpp:123-129,
components/vector/vector.cpp:513-519). -/
def pushAll {V X : Type} (rs : Nat → Nat → V → Res V) (st : V → Nat → X → Res V) : List X → Lists V → Res (Lists V)
  | [], l => .ok l
  | x :: xs, l => (double rs (l.size + 1) l.ccap l.child).bind fun vc => (st vc.1 l.size x).bind fun v =>
      pushAll rs st xs { l with child := v, ccap := vc.2, size := l.size + 1 }

/-- Elements written from a row on (components/vector/vector.cpp:529-541). -/
def setFrom {V X : Type} (st : V → Nat → X → Res V) : List X → Nat → V → Res V
  | [], _, v => .ok v
  | x :: xs, i, v => (st v i x).bind fun v' => setFrom st xs (i + 1) v'

/-- NULL for each type. -/
def nulls : (ts : List Ty) → Vals ts
  | [] => ()
  | t :: ts => (null t, nulls ts)

mutual
/-- `vector_t::set_value` of a value of the column's type on a FLAT vector (components/vector/vector.cpp:419-546).  A value of another
type is cast first (425-428; Verif/LogVal).  The validity is written even if there is no room for the data. -/
def set : (t : Ty) → Vec t → Nat → Val t → Res (Vec t)
  | .leaf _, v, i, none => .ok { v with valid := mark v.valid i false }
  | .leaf k, v, i, some a =>
    if k.handled then Rows.write { v with valid := mark v.valid i true } i a else .throws
  | .list t, v, i, none =>
    if hasSA t then (pushAll (resize t) (set t) [null t] v).bind fun l =>
      (Rows.write { l.rows with valid := mark l.rows.valid i false } i (v.size, 1)).bind fun r => .ok { l with rows := r }
    else .ok { v with rows := { v.rows with valid := mark v.rows.valid i false } }
  | .list t, v, i, some xs => (pushAll (resize t) (set t) xs v).bind fun l =>
      (Rows.write { l.rows with valid := mark l.rows.valid i true } i (v.size, xs.length)).bind fun r => .ok { l with rows := r }
  | .array t n, v, i, none => (setFrom (set t) (List.replicate n (null t)) (i * n) v.child).bind fun c =>
      .ok { v with valid := mark v.valid i false, child := c }
  | .array t n, v, i, some xs =>
    if n ≤ xs.length then (setFrom (set t) (xs.take n) (i * n) v.child).bind fun c => .ok { v with valid := mark v.valid i true, child := c }
    else .ub
  | .struct ts, v, i, none => (sets ts v.children i (nulls ts)).bind fun c => .ok { v with valid := mark v.valid i false, children := c }
  | .struct ts, v, i, some xs => (sets ts v.children i xs).bind fun c => .ok { v with valid := mark v.valid i true, children := c }
/-- The fields of a struct (components/vector/vector.cpp:497-511). -/
def sets : (ts : List Ty) → Vecs ts → Nat → Vals ts → Res (Vecs ts)
  | [], _, _, _ => .ok ()
  | t :: ts, v, i, x => (set t v.1 i x.1).bind fun a => (sets ts v.2 i x.2).bind fun b => .ok (a, b)
end

/-! ### Reading -/

/-- A row of the data is read. -/
def Rows.read {α : Type} (r : Rows α) (i : Nat) : Res α :=
  if i < r.cap then match r.data i with
    | some a => .ok a
    | none => .ub
  else .ub

/-- Rows read one after the other (components/vector/vector.cpp:657-661, 669-671). -/
def getFrom {V X : Type} (g : V → Nat → Res X) (v : V) : Nat → Nat → Res (List X)
  | _, 0 => .ok []
  | i, n + 1 => (g v i).bind fun x => (getFrom g v (i + 1) n).bind fun xs => .ok (x :: xs)

mutual
/-- `vector_t::value` of a FLAT vector (components/vector/vector.cpp:548-680, 771-780); the alias it sets is left out. -/
def get : (t : Ty) → Vec t → Nat → Res (Val t)
  | .leaf k, v, i => if v.valid i then (if k.handled then (Rows.read v i).bind fun a => .ok (some a) else .throws) else .ok none
  | .list t, v, i =>
    if v.rows.valid i then (v.rows.read i).bind fun e => (getFrom (get t) v.child e.1 e.2).bind fun xs => .ok (some xs) else .ok none
  | .array t n, v, i => if v.valid i then (getFrom (get t) v.child (i * n) n).bind fun xs => .ok (some xs) else .ok none
  | .struct ts, v, i => if v.valid i then (gets ts v.children i).bind fun xs => .ok (some xs) else .ok none
/-- The fields of a struct (components/vector/vector.cpp:645-653). -/
def gets : (ts : List Ty) → Vecs ts → Nat → Res (Vals ts)
  | [], _, _ => .ok ()
  | t :: ts, v, i => (get t v.1 i).bind fun a => (gets ts v.2 i).bind fun b => .ok (a, b)
end

end Verif.VecVal
