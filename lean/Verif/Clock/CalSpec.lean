import Mathlib.Algebra.Order.Field.Rat

/-!
# What is expected of the calibration of `Clock`
-/

namespace Verif.Clock.CalSpec

/-- A measured rate outside of `[lo, hi]`; an infinite one is outside. -/
def wild (lo hi : Rat) : Option Rat → Bool
  | none => true
  | some x => decide (x < lo) || decide (hi < x)

/-- How many are. -/
def wildCount (lo hi : Rat) : List (Option Rat) → Nat
  | [] => 0
  | v :: l => (if wild lo hi v then 1 else 0) + wildCount lo hi l

/-- No more than a quarter of the measurements can move the rate out of an interval that holds the others. -/
def Robust (ms : List (Option Rat)) (x : Rat) : Prop := ∀ lo hi, 4 * wildCount lo hi ms ≤ ms.length → lo ≤ x ∧ x ≤ hi

end Verif.Clock.CalSpec
