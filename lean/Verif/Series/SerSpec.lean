import Mathlib.Algebra.BigOperators.Intervals
import Mathlib.Algebra.Order.BigOperators.Group.Finset
import Mathlib.Data.Rat.Defs
import Verif.Series.SerModel

/-!
# What the autocovariance is
-/

namespace Verif.Series

/-- The values added since the last reset. -/
def valuesSer (ops : List SerOp) : List Rat := ops.foldl (fun l o => match o with | .add v => l ++ [v] | .reset => []) []

/-- The mean of `n` numbers. -/
def meanOf (n : Nat) (x : Nat → Rat) : Rat := (∑ t ∈ Finset.range n, x t) / n

/-- The estimator of the autocovariance of Box, Jenkins and Reinsel. -/
def autocov (n : Nat) (x : Nat → Rat) (lag : Nat) : Rat := (∑ t ∈ Finset.range (n - lag), (x t - meanOf n x) * (x (t + lag) - meanOf n x)) / n

end Verif.Series
