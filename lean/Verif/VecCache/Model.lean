import Verif.Base.Res
/-!
# Slices of a chunk with indexes in shared memory, for C118

`data_chunk_t::slice`, `/repo/components/vector/data_chunk.cpp:187-220`, with `vector_t::slice`, `vector.cpp:229-279`, and
`indexing_vector_t`, `indexing_vector.cpp`.  C81 takes the indexes of a slice as values; here they are arrays at addresses, several
columns and the caller may have the same one, and an address that is not used any more may be given out again.  Validity is left to
C81, columns of structures and vectors of the kind SEQUENCE are not modelled.
-/
namespace Verif.VecCache

open Verif

/-- The arrays of indexes by address. -/
abbrev Heap := Nat → List Nat

/-- `indexing_vector_t`: a pointer, null for every row itself (indexing_vector.cpp:75). -/
abbrev Ptr := Option Nat

/-- `get_index`, indexing_vector.cpp:75; reading behind the array is undefined. -/
def index (h : Heap) : Ptr → Nat → Res Nat
  | none, i => .ok i
  | some a, i => match (h a)[i]? with
    | none => .ub
    | some j => .ok j

/-- `vector_type`, vector.hpp:82-88, with the indexing of a dictionary. -/
inductive Sel where
  | flat
  | constant
  | dict (p : Ptr)
  deriving DecidableEq

/-- A column: `base` are the rows that are stored. -/
structure Column (V : Type) where
  sel : Sel
  base : Nat → V

/-- Row `i` of a column, vector.cpp:550-579. -/
def Column.row {V : Type} (c : Column V) (h : Heap) (i : Nat) : Res V :=
  match c.sel with
  | .flat => .ok (c.base i)
  | .constant => .ok (c.base 0)
  | .dict p => (index h p i).bind fun k => .ok (c.base k)

/-- The loop of `indexing_vector_t::slice`, indexing_vector.cpp:81-90, over the rows left. -/
def compose (h : Heap) (p q : Ptr) : List Nat → Res (List Nat)
  | [] => .ok []
  | i :: is => (index h q i).bind fun j => (index h p j).bind fun k => (compose h p q is).bind fun ks => .ok (k :: ks)

/-- The address a column uses. -/
def Sel.addr : Sel → List Nat
  | .dict (some a) => [a]
  | _ => []

/-- The addresses of columns. -/
def addrs {V : Type} (cs : List (Column V)) : List Nat := cs.flatMap fun c => c.sel.addr

/-- `indexing_cache_t`, indexing_vector.hpp:18: what the slice of a dictionary with these indexes uses. -/
abbrev Cache := List (Ptr × Nat)

/-- One array is written. -/
def put (h : Heap) (a : Nat) (l : List Nat) : Heap := fun b => if b = a then l else h b

/-- The loop of `data_chunk_t::slice`, data_chunk.cpp:190-192, with `vector_t::slice`, vector.cpp:234-279: a constant stays, a flat
vector takes the caller's indexing, the indexes of a dictionary are composed into a new array, once for each old array.  `alloc` gives
an address that nobody uses: not the columns of this chunk, done or not, nor other columns, the caller or the cache. -/
def sliceAll {V : Type} (alloc : List Nat → Nat) (others : List (Column V)) (idx : Ptr) (count : Nat) :
    List (Column V) → List (Column V) → Heap → Cache → Res (Heap × List (Column V))
  | done, [], h, _ => .ok (h, done)
  | done, c :: rest, h, cache =>
    match c.sel with
    | .constant => sliceAll alloc others idx count (done ++ [c]) rest h cache
    | .flat => sliceAll alloc others idx count (done ++ [{ c with sel := .dict idx }]) rest h cache
    | .dict p =>
      match cache.lookup p with
      | some q => sliceAll alloc others idx count (done ++ [{ c with sel := .dict (some q) }]) rest h cache
      | none =>
        let a := alloc (addrs others ++ addrs done ++ addrs (c :: rest) ++ idx.toList ++ cache.map Prod.snd)
        (compose h p idx (List.range count)).bind fun l =>
        sliceAll alloc others idx count (done ++ [{ c with sel := .dict (some a) }]) rest (put h a l) ((p, a) :: cache)

/-- `data_chunk_t::slice(indexing, count)`, data_chunk.cpp:187-193. -/
def sliceChunk {V : Type} (alloc : List Nat → Nat) (others : List (Column V)) (cols : List (Column V)) (idx : Ptr) (count : Nat)
    (h : Heap) : Res (Heap × List (Column V)) :=
  sliceAll alloc others idx count [] cols h []

end Verif.VecCache
