import Verif.MathFn.Model

/-! # What the numeric conversions promise -/

namespace Verif.MathFn
open Verif.Flt

/-- `d` lies within a sixteenth of an integer. -/
def NearInt (d : ℚ) : Prop := ∃ n : ℤ, |d - n| < 1 / 16

/-- The nearest integer, halves away from zero. -/
def nearestAway (d : ℚ) : ℤ := if 0 ≤ d then ⌊d + 1 / 2⌋ else -⌊-d + 1 / 2⌋

/-- The doubles that `convertDouble` rounds wrongly: the two next to a half, and the odd integers of 53 bits. -/
def Misrounded (d : ℚ) : Prop := |d| = 1 / 2 - 1 / 2 ^ 54 ∨ (2 ^ 52 < |d| ∧ |d| < 2 ^ 53 ∧ ∃ n : ℤ, d = 2 * n + 1)

/-- Away from zero by one. -/
def further (d : ℚ) (n : ℤ) : ℤ := if 0 ≤ d then n + 1 else n - 1

/-- `n` fits in a signed type of `size` bytes. -/
def Fits (size : Nat) (n : ℤ) : Prop := -2 ^ (8 * size - 1) ≤ n ∧ n < 2 ^ (8 * size - 1)

end Verif.MathFn
