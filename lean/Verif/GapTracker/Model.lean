/-!
Model of `gap_tracker_t`, core/b_plus_tree/segment_tree.hpp:15-69: the free ranges of a page file.
Offsets and sizes are natural numbers (the file is smaller than 2^64 bytes, and there are fewer than
2^31 gaps, so the cast in line 57 is exact).
-/
namespace Verif.GapTracker

/-- `gap_t`, segment_tree.hpp:17-20. -/
structure Gap where
  off : Nat
  size : Nat
  deriving DecidableEq, Repr

/-- `init`, segment_tree.hpp:23-26 (`min ≤ max`). -/
def init (min max : Nat) : List Gap := [⟨min, max - min⟩]

/-- `find_gap`, segment_tree.hpp:27-43: first fit. `none`: the failing assertion of line 41. -/
def findGap (size : Nat) : List Gap → Option (Nat × List Gap)
  | [] => none
  | g :: gs =>
    if size ≤ g.size then
      some (g.off, if g.size = size then gs else ⟨g.off + size, g.size - size⟩ :: gs)
    else (findGap size gs).map fun (r, gs') => (r, g :: gs')

/-- The insertion of `remove_gap`, segment_tree.hpp:45-51: before the first gap that starts later. -/
def insertGap (r : Gap) : List Gap → List Gap
  | [] => [r]
  | g :: gs => if r.off < g.off then r :: g :: gs else g :: insertGap r gs

/-- The loop of `clean_gaps`, segment_tree.hpp:57-63, from the gap `g` (index `i`) on. -/
def cleanFrom (g : Gap) : List Gap → List Gap
  | [] => [g]
  | h :: rest => if g.off + g.size = h.off then cleanFrom ⟨g.off, g.size + h.size⟩ rest else g :: cleanFrom h rest

/-- `clean_gaps`, segment_tree.hpp:55-64 (only called with at least one gap). -/
def cleanGaps : List Gap → List Gap
  | [] => []
  | g :: rest => cleanFrom g rest

/-- `remove_gap`, segment_tree.hpp:44-54: give a range back. -/
def removeGap (r : Gap) (gaps : List Gap) : List Gap := cleanGaps (insertGap r gaps)

/-- A client: asks for ranges and gives ranges back. -/
inductive Op where
  | alloc (size : Nat)
  | release (r : Gap)

/-- The tracker together with the ranges its client currently owns (ghost). -/
structure State where
  gaps : List Gap
  live : List Gap

def start (min max : Nat) : State := ⟨init min max, []⟩

/-- One call. -/
def step (s : State) : Op → State
  | .alloc size =>
    match findGap size s.gaps with
    | none => s
    | some (off, gaps) => ⟨gaps, ⟨off, size⟩ :: s.live⟩
  | .release r => ⟨removeGap r s.gaps, s.live.erase r⟩

/-- Correct use: no empty ranges, and only owned ranges are given back. -/
def Legal (s : State) : Op → Prop
  | .alloc size => 0 < size
  | .release r => r ∈ s.live

def LegalHist : State → List Op → Prop
  | _, [] => True
  | s, op :: ops => Legal s op ∧ LegalHist (step s op) ops

def run (s : State) (ops : List Op) : State := ops.foldl step s

end Verif.GapTracker
