/-
Outcomes of modelled C++ calls.

`Res.ok a`   : the call returns `a`;
`Res.throws` : an `fdapde_assert` fails, i.e. `std::runtime_error` is thrown
               (fdaPDE/utils/assert.h:23-24);
`Res.ub`     : the C++ abstract machine has no defined behaviour (out-of-range access, over-wide
               or negative shift, null dereference, use after free, ...).
-/
namespace Fdapde

inductive Res (α : Type) where
  | ok (a : α)
  | throws
  | ub
  deriving Repr, DecidableEq

namespace Res

/-- Sequencing: an exception or undefined behaviour ends the computation. -/
protected def bind {α β : Type} (x : Res α) (f : α → Res β) : Res β :=
  match x with
  | .ok a => f a
  | .throws => .throws
  | .ub => .ub

instance : Monad Res where
  pure := Res.ok
  bind := Res.bind

@[simp] theorem ok_bind {α β : Type} (a : α) (f : α → Res β) : (Res.ok a >>= f) = f a := rfl
@[simp] theorem throws_bind {α β : Type} (f : α → Res β) : ((Res.throws : Res α) >>= f) = .throws := rfl
@[simp] theorem ub_bind {α β : Type} (f : α → Res β) : ((Res.ub : Res α) >>= f) = .ub := rfl
@[simp] theorem pure_eq {α : Type} (a : α) : (pure a : Res α) = .ok a := rfl
@[simp] theorem map_ok {α β : Type} (f : α → β) (a : α) : f <$> (Res.ok a) = .ok (f a) := rfl
@[simp] theorem map_throws {α β : Type} (f : α → β) : f <$> (Res.throws : Res α) = .throws := rfl
@[simp] theorem map_ub {α β : Type} (f : α → β) : f <$> (Res.ub : Res α) = .ub := rfl

/-- An `Option` lookup where absence is undefined behaviour (unchecked `operator[]`). -/
def ofOptionUB {α : Type} : Option α → Res α
  | some a => .ok a
  | none => .ub

@[simp] theorem ofOptionUB_some {α : Type} (a : α) : ofOptionUB (some a) = .ok a := rfl
@[simp] theorem ofOptionUB_none {α : Type} : ofOptionUB (none : Option α) = .ub := rfl

theorem bind_eq_ok {α β : Type} {x : Res α} {f : α → Res β} {b : β} :
    (x >>= f) = .ok b ↔ ∃ a, x = .ok a ∧ f a = .ok b := by
  cases x <;> simp

theorem map_eq_ok {α β : Type} {x : Res α} {f : α → β} {b : β} :
    (f <$> x) = .ok b ↔ ∃ a, x = .ok a ∧ f a = b := by
  cases x <;> simp

end Res
end Fdapde
