import Verif.Flt.Round
import Verif.Res
import Verif.Histo.Model

/-!
# Gaussian elimination

`Matrix::gaussEliminate` of `/repo/src/Matrix.cpp` with the functions it calls. `r` rounds to a double after every operation, with `r = id` the arithmetic is exact; `z` is the
test whether a pivot is zero, `Double::eq(·, 0)` in the code. The array is a function of row and column; its values outside of the matrix mean nothing. An access outside of the
matrix is undefined (in debug builds it aborts). Infinities and NaNs are not modelled.
-/

namespace Verif.Matrix

open Verif

/-- Used in the model of `Matrix.cpp:56-65` (`swapRows`). -/
structure Mat where
  rows : Nat
  cols : Nat
  at_ : Nat → Nat → Rat

/-- `swapRows`, `Matrix.cpp:56-65`. -/
def swapRows (m : Mat) (a b : Nat) : Mat := { m with at_ := fun i j => if i = a then m.at_ b j else if i = b then m.at_ a j else m.at_ i j }

/-- `divRow`, `Matrix.cpp:67-74`; the caller sees to it that `v` is not 0. -/
def divRow (r : Rat → Rat) (m : Mat) (a : Nat) (v : Rat) : Mat := { m with at_ := fun i j => if i = a then r (m.at_ i j / v) else m.at_ i j }

/-- `accumMultiply`, `Matrix.cpp:76-84`. -/
def accum (r : Rat → Rat) (m : Mat) (into from_ : Nat) (v : Rat) : Mat :=
  { m with at_ := fun i j => if i = into then r (m.at_ i j + r (v * m.at_ from_ j)) else m.at_ i j }

/-- `Double::abs`, `Double.hpp:53-55`. -/
def dabs (a : Rat) : Rat := if a < 0 then -a else a

/-- The choice of the pivot, `Matrix.cpp:97-102`. -/
def maxRow (m : Mat) (col e : Nat) : Nat :=
  (List.range' (e + 1) (m.rows - (e + 1))).foldl (fun best i => if dabs (m.at_ best col) < dabs (m.at_ i col) then i else best) e

/-- `accumMultiply(i, e, -get(i, col))` for some `i`, `Matrix.cpp:108-110` and `116-118`. -/
def clearRows (r : Rat → Rat) (m : Mat) (e col : Nat) (is : List Nat) : Mat := is.foldl (fun m i => accum r m i e (-m.at_ i col)) m

/-- The body of the loop over columns, `Matrix.cpp:97-111`. The check in `divRow` is the `require`. -/
def step (r : Rat → Rat) (z : Rat → Bool) (m : Mat) (col e : Nat) : Res (Mat × Nat) :=
  let m1 := swapRows m (maxRow m col e) e
  if z (m1.at_ e col) then .ok (m1, e)
  else do
    Res.require (decide (0 < dabs (m1.at_ e col)))
    pure (clearRows r (divRow r m1 e (m1.at_ e col)) e col (List.range' (e + 1) (m.rows - (e + 1))), e + 1)

/-- The loop over columns, `Matrix.cpp:94-112`: `n` more from `col`. The result has the last value of `column`. -/
def forward (r : Rat → Rat) (z : Rat → Bool) : Nat → Nat → Mat → Nat → Res (Mat × Nat × Nat)
  | 0, col, m, e => .ok (m, e, col)
  | n + 1, col, m, e =>
    if e = m.rows then .ok (m, e, col)
    else if m.cols ≤ col then .ub
    else do
      let p ← step r z m col e
      forward r z n (col + 1) p.1 p.2

/-- The loop of the back substitution, `Matrix.cpp:115-119`, from column `c`. -/
def back (r : Rat → Rat) : Nat → Mat → Mat
  | 0, m => m
  | c + 1, m => back r c (clearRows r m (c + 1) (c + 1) (List.range (c + 1)))

/-- `gaussEliminate`, `Matrix.cpp:86-123`. With `column = 0` the decrement wraps around and the loop reads outside of the matrix. -/
def gauss (r : Rat → Rat) (z : Rat → Bool) (m : Mat) (maxcolumn : Int) : Res (Mat × Nat) := do
  let n : Int := if maxcolumn = -1 then min m.rows m.cols else maxcolumn
  let p ← forward r z n.toNat 0 m 0
  if (p.2.1 : Int) = n then
    if p.2.2 = 0 then .ub else .ok (back r (p.2.2 - 1) p.1, p.2.1)
  else .ok (p.1, p.2.1)

/-- The test of the code, with `Double::default_epsilon = eps`. Part of the model of `Matrix.cpp:56-123`. -/
def tiny (r : Rat → Rat) (eps : Rat) (x : Rat) : Bool := Histo.eq r eps x 0

end Verif.Matrix
