import Verif.Res

/-! # Specification of a lower-bound search -/

namespace Verif.Interp

variable {α : Type}

/-- `r` is the lower bound of `v` in `a`: exactly the first `r` elements are less than `v`. -/
def IsLowerBound (lt : α → α → Bool) (a : List α) (v : α) (r : Nat) : Prop :=
  r ≤ a.length ∧ ∀ i x, a[i]? = some x → (lt x v = true ↔ i < r)

/-- The range is partitioned for `v`: whatever stands before an element less than `v` is less than `v`. Every
range sorted by a strict weak order is, for every `v`. -/
def Partitioned (lt : α → α → Bool) (a : List α) (v : α) : Prop :=
  ∀ (i j : Nat) (x y : α), i < j → a[i]? = some x → a[j]? = some y → lt y v = true → lt x v = true

/-- The range is sorted: no element is less than an earlier one. -/
def Sorted (lt : α → α → Bool) (a : List α) : Prop :=
  ∀ (i j : Nat) (x y : α), i < j → a[i]? = some x → a[j]? = some y → lt y x = false

/-- Strict weak order. -/
structure StrictWeak (lt : α → α → Bool) : Prop where
  irrefl : ∀ x, lt x x = false
  trans : ∀ x y z, lt x y = true → lt y z = true → lt x z = true
  incomp : ∀ x y z, lt x y = false → lt y z = false → lt x z = false

/-- The estimator keeps its promise (`InterpolationSearch.hpp:39-40`): for elements `first`, `last` of the range
with `first < v <= last` it returns a position of at most `last_pos`. -/
def InRange (lt : α → α → Bool) (est : α → α → α → Nat → Res Nat) (a : List α) (v : α) : Prop :=
  ∀ f l m, f ∈ a → l ∈ a → lt f v = true → lt l v = false → m < a.length → ∃ k, est v f l m = .ok k ∧ k ≤ m

end Verif.Interp
