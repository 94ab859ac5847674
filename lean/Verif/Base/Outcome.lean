/-!
# Outcomes of C++ calls

A modelled C++ call returns a value (`ok`), raises a C++ exception (`throw`), or runs into
undefined behaviour (`ub`): an out-of-range access, a null dereference, an over-long shift.
-/
namespace Verif

/-- Outcome of a modelled C++ call. -/
inductive Res (α : Type) where
  | ok (a : α)
  | throw
  | ub
deriving DecidableEq, Repr

namespace Res

/-- Sequencing: exceptions and undefined behaviour propagate. -/
def bind {α β : Type} : Res α → (α → Res β) → Res β
  | ok a, f => f a
  | throw, _ => throw
  | ub, _ => ub

instance : Monad Res where
  pure := ok
  bind := bind

instance : LawfulMonad Res := LawfulMonad.mk'
  (id_map := by intro α x; cases x <;> rfl)
  (pure_bind := by intros; rfl)
  (bind_assoc := by intro α β γ x f g; cases x <;> rfl)

@[simp] theorem pure_eq {α : Type} (a : α) : (pure a : Res α) = ok a := rfl
@[simp] theorem ok_bind {α β : Type} (a : α) (f : α → Res β) : (ok a >>= f) = f a := rfl
@[simp] theorem throw_bind {α β : Type} (f : α → Res β) : ((throw : Res α) >>= f) = throw := rfl
@[simp] theorem ub_bind {α β : Type} (f : α → Res β) : ((ub : Res α) >>= f) = ub := rfl

/-- The call did not run into undefined behaviour. -/
def Safe {α : Type} (r : Res α) : Prop := r ≠ ub

theorem bind_eq_ok {α β : Type} {r : Res α} {f : α → Res β} {b : β} :
    (r >>= f) = ok b ↔ ∃ a, r = ok a ∧ f a = ok b := by
  cases r with
  | ok a => simp
  | throw => simp
  | ub => simp

theorem bind_eq_ub {α β : Type} {r : Res α} {f : α → Res β} :
    (r >>= f) = ub ↔ r = ub ∨ ∃ a, r = ok a ∧ f a = ub := by
  cases r with
  | ok a => simp
  | throw => simp
  | ub => simp

end Res
end Verif
