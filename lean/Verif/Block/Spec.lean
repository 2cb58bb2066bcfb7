import Verif.Block.Model
import Mathlib.Data.Finset.Card
import Mathlib.Data.Finset.Dedup
/-!
What a page is supposed to be: a finite collection of distinct (key, item) entries of bounded total size.
-/
namespace Verif.Block
variable {K : Type} [LinearOrder K]

/-- The entries the page holds, by descending key. -/
def entries (b : Block K) : List (K × Bytes) := b.metas.map fun m => (m.key, item b m)

/-- Room taken by entries in a page. -/
def used (es : List (K × Bytes)) : Nat := (es.map fun e => e.2.length + 24).sum

/-- A client of one page. -/
inductive Op (K : Type) where
  | append (k : K) (x : Bytes)
  | remove (k : K) (x : Bytes)
  | removeIndex (k : K)

/-- The specification: the entries after the call, and the answer. -/
def specStep (full : Nat) (es : List (K × Bytes)) : Op K → List (K × Bytes) × Bool
  | .append k x => if (k, x) ∈ es ∨ full < 16 + used es + x.length + 24 then (es, false) else ((k, x) :: es, true)
  | .remove k x => if (k, x) ∈ es then (es.filter (· ≠ (k, x)), true) else (es, false)
  | .removeIndex k => if k ∈ es.map Prod.fst then (es.filter (·.1 ≠ k), true) else (es, false)
  
/-- The specified entries and answers of a history. -/
def specRun (full : Nat) : List (K × Bytes) → List (Op K) → List (K × Bytes) × List Bool
  | es, [] => (es, [])
  | es, op :: ops =>
    let (es1, r) := specStep full es op
    let (es2, rs) := specRun full es1 ops
    (es2, r :: rs)

end Verif.Block
