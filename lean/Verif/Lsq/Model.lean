import Verif.Flt.Round
import Verif.Res

/-!
# Least squares

`LeastSquares` of `/repo/include/Lintel/LeastSquares.hpp` and `/repo/src/LeastSquares.cpp`. `r` rounds to a double after every operation, with `r = id` the arithmetic is exact.
Infinities and NaNs are not modelled.
-/

namespace Verif.Lsq

open Verif

/-- `WeightedPoint`, `LeastSquares.hpp:36-40`. -/
structure Point where
  x : Rat
  y : Rat
  w : Rat
deriving Repr, DecidableEq

/-- `Linear`, `LeastSquares.hpp:29-34`. -/
structure Line where
  intercept : Rat
  slope : Rat
deriving Repr, DecidableEq

/-- `Linear::get`, `LeastSquares.hpp:32`. -/
def Line.get (r : Rat → Rat) (l : Line) (x : Rat) : Rat := r (r (x * l.slope) + l.intercept)

/-- The sums of `fitLinearVertical`. Used in the model of `LeastSquares.cpp:24-30` (`accumulate`). -/
structure Sums where
  w : Rat
  wx : Rat
  wy : Rat
  wxx : Rat
  wxy : Rat
deriving Repr, DecidableEq

/-- The body of the loop, `LeastSquares.cpp:24-30`. -/
def accumulate (r : Rat → Rat) (s : Sums) (p : Point) : Sums :=
  { w := r (s.w + p.w)
    wx := r (s.wx + r (p.w * p.x))
    wy := r (s.wy + r (p.w * p.y))
    wxx := r (s.wxx + r (r (p.w * p.x) * p.x))
    wxy := r (s.wxy + r (r (p.w * p.x) * p.y)) }

/-- `denom`, `LeastSquares.cpp:33`. -/
def denom (r : Rat → Rat) (s : Sums) : Rat := r (r (s.w * s.wxx) - r (s.wx * s.wx))

/-- `LeastSquares.cpp:32-38`. -/
def solve (r : Rat → Rat) (s : Sums) : Res Line := do
  Res.require (decide (denom r s ≠ 0))
  let slope := r (r (r (s.w * s.wxy) - r (s.wx * s.wy)) / denom r s)
  pure ⟨r (r (s.wy - r (slope * s.wx)) / s.w), slope⟩

/-- `fitLinearVertical`, `LeastSquares.cpp:19-39`. -/
def fit (r : Rat → Rat) (data : List Point) : Res Line := do
  Res.require (decide (1 < data.length))
  solve r (data.foldl (accumulate r) ⟨0, 0, 0, 0, 0⟩)

/-- The calls that change the object. Not a function of the code; stands for the uses of `LeastSquares.hpp:52-55`. -/
inductive Op where
  | add (x y w : Rat)
  | clear

/-- `add`, `LeastSquares.hpp:52-55`, and `clear`, `LeastSquares.hpp:57-59`. -/
def step (data : List Point) : Op → Res (List Point)
  | .add x y w => do
    Res.require (decide (0 < w))
    pure (data ++ [⟨x, y, w⟩])
  | .clear => .ok []

/-- Not a function of the code; stands for the uses of `LeastSquares.hpp:36-55`. -/
def run (data : List Point) : List Op → Res (List Point)
  | [] => .ok data
  | o :: ops => do
    let data ← step data o
    run data ops

end Verif.Lsq
