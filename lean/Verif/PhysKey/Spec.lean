import Verif.PhysKey.Model
/-!
What an order of keys must satisfy.
-/
namespace Verif.PhysKey

open Verif.Num

/-- A strict weak order on a set of keys: irreflexive, transitive, and incomparability is transitive. -/
structure StrictWeak (S : Key → Prop) (lt : Key → Key → Bool) : Prop where
  irrefl : ∀ a, S a → lt a a = false
  trans : ∀ a b c, S a → S b → S c → lt a b = true → lt b c = true → lt a c = true
  incomp : ∀ a b c, S a → S b → S c → (lt a b = false ∧ lt b a = false) → (lt b c = false ∧ lt c b = false) →
    lt a c = false ∧ lt c a = false

def Key.isFloat : Key → Bool
  | .float _ => true
  | _ => false

def Key.isDouble : Key → Bool
  | .double _ => true
  | _ => false

def Key.isNaN : Key → Bool
  | .float b => decide (decode32 b = .nan)
  | .double b => decide (decode64 b = .nan)
  | _ => false

/-- An integer of absolute value at most `2^p`, or no integer. -/
def Key.small (p : Nat) : Key → Prop
  | .int t a => (t.read a).natAbs ≤ 2 ^ p
  | _ => True

/-- The values an integer type holds. -/
def ITy.fits (t : ITy) (v : Int) : Prop :=
  if t.signed then -2 ^ (t.bits - 1) ≤ v ∧ v < 2 ^ (t.bits - 1) else 0 ≤ v ∧ v < 2 ^ t.bits

instance (t : ITy) (v : Int) : Decidable (t.fits v) := by unfold ITy.fits; infer_instance

end Verif.PhysKey
