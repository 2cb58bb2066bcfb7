import Verif.VecSel.Model
/-!
# Hashes of the rows of a chunk, for C117

`/repo/components/vector/vector_operations.cpp:56-110, 141-223, 292-501, 861-875` and `data_chunk.cpp:232-248`.  `T` are the values
of all simple types together and `h` is `std::hash` of the type.  As in C116 the rows of a vector are a function and reading
behind its null mask is undefined.  Columns of structures and of arrays of one size are not modelled, nor are the variants that take
an indexing of rows, which no chunk uses.
-/
namespace Verif.VecHash

open Verif Verif.Validity Verif.VecSel

/-- What every vector has: its kind, its null mask and its indexing if it is a dictionary. -/
structure Head where
  kind : Kind
  mask : Mask
  sel : Nat → Nat

/-- The indexing of `to_unified_format`, vector.cpp:949-980. -/
def Head.index (d : Head) (i : Nat) : Nat :=
  match d.kind with
  | .constant => 0
  | .flat => i
  | .dictionary => d.sel i

/-- A column: of a simple type; of lists, each a place and a length in the vector of all elements (`list_entry_t`), which has
`size` of them; or of a type the hash has no case for (128 bits and intervals, vector_operations.cpp:322-327, 334-336, 349-350). -/
inductive Col (T : Type) where
  | simple (d : Head) (data : Nat → T)
  | list (d : Head) (off len : Nat → Nat) (child : Col T) (size : Nat)
  | other

/-- The vector of hashes. -/
structure Hashes where
  const : Bool
  at_ : Nat → Word

/-- Row `i` of the hashes. -/
def Hashes.row (s : Hashes) (i : Nat) : Word := if s.const then s.at_ 0 else s.at_ i

/-- `hasher_t::NULL_HASH`, vector_operations.cpp:57. -/
def nullHash : Word := 0xbf58476d1ce4e5b9#64

/-- `hasher_t::operation`, vector_operations.cpp:59-62. -/
def operation {T : Type} (h : T → Word) (x : T) (isNull : Bool) : Word := if isNull then nullHash else h x

/-- `combine_hash_scalar`, vector_operations.cpp:65. -/
def comb (a b : Word) : Word := (a * 0xbf58476d1ce4e5b9#64) ^^^ b

/-- One row is written. -/
def put {A : Type} (g : Nat → A) (i : Nat) (w : A) : Nat → A := fun k => if k = i then w else g k

/-- `flatten` of the hashes, vector.cpp:793-847: a constant gets a new buffer with `count` rows. -/
def Hashes.flatten (s : Hashes) (count : Nat) : Hashes :=
  if s.const then ⟨false, fun i => if i < count then s.at_ 0 else 0#64⟩ else s

/-- The three loops over rows: `tight_loop_hash`, `tight_loop_combine_hash_const` and `tight_loop_combine_hash`,
vector_operations.cpp:67-87, 354-401.  `f` makes the new hash of the old one and the one of the cell; `n` rows are left. -/
def tight {T : Type} (h : T → Word) (f : Word → Word → Word) (d : Head) (data : Nat → T) :
    Nat → Nat → (Nat → Word) → Res (Nat → Word)
  | 0, _, out => .ok out
  | n + 1, i, out =>
    if d.mask.words.isNone then tight h f d data n (i + 1) (put out i (f (out i) (h (data (d.index i)))))
    else
      (rowIsValid d.mask (d.index i)).bind fun v =>
      tight h f d data n (i + 1) (put out i (f (out i) (operation h (data (d.index i)) (!v))))

/-- `templated_loop_hash`, vector_operations.cpp:89-110. -/
def simpleHash {T : Type} (h : T → Word) (d : Head) (data : Nat → T) (s : Hashes) (count : Nat) : Res Hashes :=
  match d.kind with
  | .constant => (rowIsValid d.mask 0).bind fun v => .ok ⟨true, put s.at_ 0 (operation h (data 0) (!v))⟩
  | _ => (tight h (fun _ x => x) d data count 0 s.at_).bind fun out => .ok ⟨false, out⟩

/-- `templated_loop_combine_hash`, vector_operations.cpp:403-436. -/
def simpleCombine {T : Type} (h : T → Word) (d : Head) (data : Nat → T) (s : Hashes) (count : Nat) : Res Hashes :=
  if d.kind = .constant ∧ s.const then
    (rowIsValid d.mask 0).bind fun v => .ok ⟨true, put s.at_ 0 (comb (s.at_ 0) (operation h (data 0) (!v)))⟩
  else if s.const then
    (tight h (fun _ x => comb (s.at_ 0) x) d data count 0 s.at_).bind fun out => .ok ⟨false, out⟩
  else (tight h comb d data count 0 s.at_).bind fun out => .ok ⟨false, out⟩

/-- What `list_loop_hash` carries: the rows with elements left, the next element of each and the hashes. -/
structure St where
  rows : List Nat
  cursor : Nat → Nat
  out : Nat → Word

/-- The loop that starts the rows, vector_operations.cpp:163-174; `n` rows are left. -/
def start (first : Bool) (d : Head) (off len : Nat → Nat) : Nat → Nat → St → Res St
  | 0, _, s => .ok s
  | n + 1, i, s =>
    (rowIsValid d.mask (d.index i)).bind fun v =>
    start first d off len n (i + 1)
      (if v ∧ 0 < len (d.index i) then { s with rows := s.rows ++ [i], cursor := put s.cursor i (off (d.index i)) }
       else if first then { s with out := put s.out i nullHash }
       else s)

/-- One row of a round: its next element is taken in and the row is kept if it has more, vector_operations.cpp:184-194, 205-215.
The rows kept are written over the rows done; here they are a list of their own. -/
def step (f : Word → Word → Word) (ch : Nat → Word) (len : Nat → Nat) (pos : Nat) (s : St) (r : Nat) : St :=
  let out := put s.out r (f (s.out r) (ch (s.cursor r)))
  if len r > pos then ⟨s.rows ++ [r], put s.cursor r (s.cursor r + 1), out⟩ else ⟨s.rows, s.cursor, out⟩

/-- A round over all rows with elements left. -/
def round (f : Word → Word → Word) (ch : Nat → Word) (len : Nat → Nat) (pos : Nat) (s : St) : St :=
  s.rows.foldl (step f ch len pos) { s with rows := [] }

/-- `for (;; ++position)`, vector_operations.cpp:203-222, with a bound on the rounds. -/
def rounds (ch : Nat → Word) (len : Nat → Nat) : Nat → Nat → St → Res (Nat → Word)
  | 0, _, _ => .diverges
  | fuel + 1, pos, s =>
    let s' := round comb ch len pos s
    if s'.rows = [] then .ok s'.out else rounds ch len fuel (pos + 1) s'

/-- `list_loop_hash` after the elements are hashed, vector_operations.cpp:161-223.  `fuel` bounds the rounds. -/
def listRows (first : Bool) (d : Head) (off len : Nat → Nat) (ch : Nat → Word) (count fuel : Nat) (out : Nat → Word) :
    Res (Nat → Word) :=
  (start first d off len count 0 ⟨[], fun _ => 0, out⟩).bind fun s =>
  if s.rows = [] then .ok s.out
  else if first then
    let s' := round (fun _ x => x) ch (fun r => len (d.index r)) 1 s
    if s'.rows = [] then .ok s'.out else rounds ch (fun r => len (d.index r)) fuel 2 s'
  else rounds ch (fun r => len (d.index r)) fuel 1 s

/-- Enough rounds for `count` rows. -/
def enough (d : Head) (len : Nat → Nat) (count : Nat) : Nat := ((List.range count).map fun i => len (d.index i)).sum + 1

/-- `hash_type_switch` (`first`) and `combine_hash_type_switch`, vector_operations.cpp:292-352, 439-501, with `list_loop_hash`,
vector_operations.cpp:141-159. -/
def hashCol {T : Type} (h : T → Word) : Bool → Col T → Hashes → Nat → Res Hashes
  | first, .simple d data, s, count => if first then simpleHash h d data s count else simpleCombine h d data s count
  | first, .list d off len child size, s, count =>
    (if 0 < size then (hashCol h true child ⟨false, fun _ => 0#64⟩ size).bind fun c => .ok (c.flatten size).at_
     else .ok fun _ => 0#64).bind fun ch =>
    (listRows first d off len ch count (enough d len count) (s.flatten count).at_).bind fun out => .ok ⟨false, out⟩
  | _, .other, _, _ => .throws

/-- The columns after the first. -/
def hashRest {T : Type} (h : T → Word) : List (Col T) → Hashes → Nat → Res Hashes
  | [], s, _ => .ok s
  | c :: cs, s, count => (hashCol h false c s count).bind fun s => hashRest h cs s count

/-- `data_chunk_t::hash`, data_chunk.cpp:232-238. -/
def hashChunk {T : Type} (h : T → Word) (cols : List (Col T)) (s : Hashes) (count : Nat) : Res Hashes :=
  match cols with
  | [] => .ub
  | c :: cs => (hashCol h true c s count).bind fun s => hashRest h cs s count

end Verif.VecHash
