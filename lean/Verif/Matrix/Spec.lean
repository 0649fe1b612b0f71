import Verif.Matrix.Model
import Mathlib.Algebra.BigOperators.Ring.Finset

/-! # Linear equations -/

namespace Verif.Matrix

/-- What row `i` makes of the numbers `x`, one for each column. -/
def dot (m : Mat) (x : Nat → Rat) (i : Nat) : Rat := ∑ j ∈ Finset.range m.cols, m.at_ i j * x j

/-- `x` solves all equations `∑ m i j * x j = 0`. -/
def Solves (m : Mat) (x : Nat → Rat) : Prop := ∀ i, i < m.rows → dot m x i = 0

/-- `x` solves the equations whose coefficients are in the first `n` columns and whose right sides are in the next. -/
def Augmented (m : Mat) (n : Nat) (x : Nat → Rat) : Prop := ∀ i, i < m.rows → ∑ j ∈ Finset.range n, m.at_ i j * x j = m.at_ i n

/-- The first `n` columns are those of the identity. -/
def Ident (m : Mat) (n : Nat) : Prop := ∀ i j, i < m.rows → j < n → m.at_ i j = if i = j then 1 else 0

/-- All elements are doubles. -/
def Doubles (m : Mat) : Prop := ∀ i j, i < m.rows → j < m.cols → Flt.IsDouble (m.at_ i j)

end Verif.Matrix
