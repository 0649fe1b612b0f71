import Verif.Quantile.Print
import Verif.Quantile.Spec
import Mathlib.Data.Nat.Log

/-! # What should be printed of a quantile sketch -/

namespace Verif.Quantile

variable {V : Type} [LinearOrder V]

/-- Among `vals`, `x` is at a position that is the fraction `q` of them, up to the fraction `e`. -/
def Around (vals : List V) (q e : Rat) (x : V) : Prop :=
  ∃ j : Nat, AtPos vals x j ∧ (vals.length : Rat) * (q - e - 2 / 10 ^ 15) ≤ j ∧ (j = 1 ∨ (j : Rat) < vals.length * (q + e) + 1)

/-- `n` ranges have `n - 1` boundaries. -/
def fracs (n : Nat) : List Rat := (List.range' 1 (n - 1)).map fun k => (k : Rat) / n

/-- 90% and 95%, 99% and 99.5%, ... -/
def pair (j : Nat) : List Rat := [1 - 1 / 10 ^ j, 1 - 5 / 10 ^ (j + 1)]

/-- As many pairs as have at least `least` of the `N` values above the first of them. -/
def TailFracs (least N : Nat) (l : List Rat) : Prop := ∃ m, l = (List.range' 1 m).flatMap pair ∧ ∀ j, 1 ≤ j → (j ≤ m ↔ least * 10 ^ j ≤ N)

/-- A row is for the fraction `q`, and its value is right up to the fraction `e` of the values. -/
def Right (vals : List V) (e q : Rat) (r : Row V) : Prop :=
  |r.q - q| ≤ 1 / 10 ^ 12 ∧ |r.percent - 100 * q| ≤ 1 / 10 ^ 10 ∧ ∃ x, r.value = some x ∧ Around vals r.q e x

/-- Cut in pieces of ten, the last of which may be shorter. -/
def tens {α : Type} : List α → List (List α)
  | [] => []
  | x :: l => (x :: l.take 9) :: tens (l.drop 9)
termination_by l => l.length
decreasing_by simp only [List.length_drop, List.length_cons]; omega

/-- A line of ranges: the percentage of its first quantile, and the quantiles. -/
def textLine (label : Rat → List Char) (val : Option V → List Char) (l : List (Row V)) : List Char :=
  "\n    ".toList ++ (l.head?.map fun r => label r.percent).getD [] ++ "%: ".toList ++ ", ".toList.intercalate (l.map fun r => val r.value)

/-- An entry of the tails. -/
def tailEntry (label : Rat → List Char) (val : Option V → List Char) (r : Row V) : List Char := label r.percent ++ "%: ".toList ++ val r.value

end Verif.Quantile
