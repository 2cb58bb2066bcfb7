import Verif.Arrow.MetaModel
/-!
What metadata say.
-/
namespace Verif.ArrowMeta

/-- Every key is there once, and there are no more pairs and no longer texts than a signed number of four bytes can count. -/
def Small (m : Meta) : Prop :=
  (m.map Prod.fst).Nodup ∧ m.length < 2 ^ 31 ∧ ∀ e ∈ m, e.1.length < 2 ^ 31 ∧ e.2.length < 2 ^ 31

/-- The two hold the same pairs. -/
def Same (m m' : Meta) : Prop := ∀ e, e ∈ m ↔ e ∈ m'

end Verif.ArrowMeta
