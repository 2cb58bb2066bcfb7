import Verif.Validity.Model
/-!
Specification of null masks: what "row `i` is valid" means, and well-formed masks.
-/
namespace Verif.Validity

/-- Row `i` is valid: there is no mask, or bit `i` of the buffer is set. -/
def Mask.valid (m : Mask) (i : Nat) : Bool :=
  match m.words with
  | none => true
  | some ws => match ws[i / 64]? with
    | none => false
    | some w => w.getLsbD (i % 64)

/-- A mask that owns its buffer: `count` words. -/
def Mask.WF (m : Mask) : Prop := ∀ ws, m.words = some ws → ws.length = m.count

/-- Number of valid rows among the first `n`. -/
def Mask.validCount (m : Mask) (n : Nat) : Nat := ((List.range n).filter m.valid).length

end Verif.Validity
