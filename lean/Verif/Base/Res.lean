/-!
Outcome of a C++ call. Undefined behaviour, a thrown exception and a loop that never ends are
kept apart from normal results.
-/
namespace Verif

inductive Res (α : Type) where
  | ok (a : α)
  | throws
  | ub
  | diverges
  deriving DecidableEq, Repr

namespace Res
def bind {α β : Type} : Res α → (α → Res β) → Res β
  | ok a, f => f a
  | throws, _ => throws
  | ub, _ => ub
  | diverges, _ => diverges

instance : Monad Res where
  pure := ok
  bind := bind

def map' {α β : Type} (f : α → β) (r : Res α) : Res β := r.bind fun a => ok (f a)

@[simp] theorem ok_bind {α β : Type} (a : α) (f : α → Res β) : (ok a >>= f) = f a := rfl
@[simp] theorem throws_bind {α β : Type} (f : α → Res β) : ((throws : Res α) >>= f) = throws := rfl
@[simp] theorem ub_bind {α β : Type} (f : α → Res β) : ((ub : Res α) >>= f) = ub := rfl
@[simp] theorem diverges_bind {α β : Type} (f : α → Res β) : ((diverges : Res α) >>= f) = diverges := rfl
@[simp] theorem pure_eq {α : Type} (a : α) : (pure a : Res α) = ok a := rfl

theorem bind_eq_ok {α β : Type} {r : Res α} {f : α → Res β} {b : β} :
    (r >>= f) = ok b ↔ ∃ a, r = ok a ∧ f a = ok b := by
  cases r <;> simp
end Res
end Verif
