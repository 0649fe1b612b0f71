/-!
# Outcomes of modelled C++ code

`ok a`    the call returned `a`;
`abort`   an `INVARIANT`, `SINVARIANT`, `FATAL_ERROR` or `CHECKED` fired
          (`/repo/include/Lintel/AssertBoost.hpp`), the process stops;
`ub`      the code did something C++ leaves undefined (out-of-bounds access, read of an
          unconstructed or destroyed object, use after free, division by zero, ...).
-/

namespace Verif

inductive Res (α : Type u) where
  | ok (a : α)
  | abort
  | ub
deriving Repr, DecidableEq

namespace Res

@[inline] def bind {α : Type u} {β : Type v} : Res α → (α → Res β) → Res β
  | .ok a, f => f a
  | .abort, _ => .abort
  | .ub, _ => .ub

def map {α : Type u} {β : Type v} (f : α → β) : Res α → Res β
  | .ok a => .ok (f a)
  | .abort => .abort
  | .ub => .ub

instance : Monad Res where
  pure := .ok
  bind := Res.bind

/-- `INVARIANT(c, ...)`. -/
def require (c : Bool) : Res Unit := if c then .ok () else .abort

@[simp] theorem bind_ok {α : Type u} {β : Type u} (a : α) (f : α → Res β) : (Res.ok a >>= f) = f a := Eq.trans rfl rfl
@[simp] theorem bind_abort {α : Type u} {β : Type u} (f : α → Res β) : ((Res.abort : Res α) >>= f) = .abort := Eq.trans rfl rfl
@[simp] theorem bind_ub {α : Type u} {β : Type u} (f : α → Res β) : ((Res.ub : Res α) >>= f) = .ub := Eq.trans rfl rfl
@[simp] theorem pure_eq {α : Type u} (a : α) : (pure a : Res α) = .ok a := Eq.trans rfl rfl
@[simp] theorem map_ok {α : Type u} {β : Type v} (f : α → β) (a : α) : (Res.ok a).map f = .ok (f a) := Eq.trans rfl rfl
@[simp] theorem map_abort {α : Type u} {β : Type v} (f : α → β) : (Res.abort : Res α).map f = .abort := Eq.trans rfl rfl
@[simp] theorem map_ub {α : Type u} {β : Type v} (f : α → β) : (Res.ub : Res α).map f = .ub := Eq.trans rfl rfl
@[simp] theorem require_true : require true = .ok () := Eq.trans rfl rfl
@[simp] theorem require_false : require false = .abort := Eq.trans rfl rfl

theorem bind_eq_ok {α β : Type u} {x : Res α} {f : α → Res β} {b : β} :
    (x >>= f) = .ok b ↔ ∃ a, x = .ok a ∧ f a = .ok b := by
  cases x <;> simp

theorem bind_assoc' {α β γ : Type u} (x : Res α) (f : α → Res β) (g : β → Res γ) :
    (x >>= f >>= g) = (x >>= fun a => f a >>= g) := by
  cases x <;> rfl

end Res
end Verif
