import Verif.Res
import Verif.Flt.Round

/-!
# `MathSpecialFunctions`

`/repo/src/MathSpecialFunctions.cpp` and the inline functions of `/repo/include/Lintel/MathSpecialFunctions.hpp`.
A `double` is a finite number, an infinity or NaN; a finite operation is exact arithmetic followed by the rounding
`R`. Overflow and subnormal numbers are not modelled. `erf`, `exp`, `log` and `sqrt` are arbitrary functions.
-/

namespace Verif.MathFn
open Verif.Flt

/-- A `double`. Signed zeros are not told apart. Used in the model of `MathSpecialFunctions.cpp:60-72` (`roundingErrorPart`). -/
inductive D where
  | fin (q : ℚ)
  | inf (neg : Bool)
  | nan
deriving DecidableEq

namespace D

/-- IEEE addition. Used in the model of `MathSpecialFunctions.cpp:60-72` (`roundingErrorPart`). -/
def add (R : Rounding) : D → D → D
  | fin a, fin b => fin (R.rnd (a + b))
  | nan, _ => nan
  | _, nan => nan
  | inf s, inf t => if s = t then inf s else nan
  | inf s, fin _ => inf s
  | fin _, inf s => inf s

/-- Change of sign. Used in the model of `MathSpecialFunctions.cpp:60-72` (`sub`). -/
def neg : D → D
  | fin a => fin (-a)
  | inf s => inf (!s)
  | nan => nan

/-- IEEE subtraction. Used in the model of `MathSpecialFunctions.cpp:60-72` (`roundingErrorPart`). -/
def sub (R : Rounding) (a b : D) : D := add R a (neg b)

/-- IEEE multiplication. Used in the model of `MathSpecialFunctions.cpp:30-32` (`guess`). -/
def mul (R : Rounding) : D → D → D
  | fin a, fin b => fin (R.rnd (a * b))
  | nan, _ => nan
  | _, nan => nan
  | inf s, inf t => inf (s != t)
  | inf s, fin b => if b = 0 then nan else inf (s != decide (b < 0))
  | fin a, inf s => if a = 0 then nan else inf (s != decide (a < 0))

/-- IEEE division. The sign of a zero divisor is taken as positive. Used in the model of `MathSpecialFunctions.cpp:30-32` (`guess`). -/
def div (R : Rounding) : D → D → D
  | fin a, fin b => if b = 0 then (if a = 0 then nan else inf (decide (a < 0))) else fin (R.rnd (a / b))
  | nan, _ => nan
  | _, nan => nan
  | inf _, inf _ => nan
  | inf s, fin b => inf (s != decide (b < 0))
  | fin _, inf _ => fin 0

/-- `a < b`; false when either is NaN. Used in the model of `MathSpecialFunctions.cpp:60-72` (`roundingErrorPart`). -/
def lt : D → D → Bool
  | fin a, fin b => decide (a < b)
  | nan, _ => false
  | _, nan => false
  | inf s, inf t => s && !t
  | inf s, fin _ => s
  | fin _, inf t => !t

/-- `a >= b`; false when either is NaN. Used in the model of `MathSpecialFunctions.cpp:80-140` (`isDoubleIntegral`). -/
def ge : D → D → Bool
  | fin a, fin b => decide (b ≤ a)
  | nan, _ => false
  | _, nan => false
  | inf s, inf t => !s || t
  | inf s, fin _ => !s
  | fin _, inf t => t

/-- `fabs`. Used in the model of `MathSpecialFunctions.cpp:80-140` (`isDoubleIntegral`). -/
def abs : D → D
  | fin a => fin |a|
  | inf _ => inf false
  | nan => nan

end D

open D

/-- Truncation towards zero: what `modf` stores and what a conversion to an integer type keeps. Used in the model of `MathSpecialFunctions.cpp:60-72` (`modf`). -/
def trunc (q : ℚ) : ℤ := if 0 ≤ q then ⌊q⌋ else ⌈q⌉

/-- The value `modf` returns: the fraction, with the sign of the argument; exact. Used in the model of `MathSpecialFunctions.cpp:60-72` (`roundingErrorPart`). -/
def modf : D → D
  | fin q => fin (q - trunc q)
  | inf _ => fin 0
  | nan => nan

/-- `roundingErrorPart`, `MathSpecialFunctions.cpp:60-72`. -/
def roundingErrorPart (R : Rounding) (d : D) : D :=
  let f := modf d
  let f := if lt (fin (1 / 2)) f then sub R f (fin 1) else f
  if lt f (fin (-1 / 2)) then add R f (fin 1) else f

/-- `(double)LONG_MAX` (or `LONG_LONG_MAX`) for a type of `size` bytes, `MathSpecialFunctions.cpp:95-97`: 31 bits fit, 63
are rounded to `2^63`. -/
def maxOf (R : Rounding) (size : Nat) : ℚ := R.rnd (2 ^ (8 * size - 1) - 1)

/-- `isDoubleIntegral`, `MathSpecialFunctions.cpp:80-140`. `longSize` is `sizeof(long)`; `sizeof(long long)` is 8. -/
def isDoubleIntegral (R : Rounding) (longSize : Nat) (d : D) (targetSize : Nat) : Res Bool := do
  Res.require (decide (0 < targetSize ∧ (targetSize = longSize ∨ targetSize = 8)))
  pure (if ge (D.abs d) (fin (if targetSize = 8 then maxOf R 8 else maxOf R longSize)) then false
    else if ge (D.abs (roundingErrorPart R d)) (fin (1 / 16)) then false
    else if lt (D.abs (roundingErrorPart R (add R d (fin (1 / 16))))) (fin (1 / 16)) &&
        lt (D.abs (roundingErrorPart R (sub R d (fin (1 / 16))))) (fin (1 / 16)) then false
    else true)

/-- The conversion of a `double` to a signed integer type of `size` bytes: undefined when the truncated value does not
fit, for NaN and for infinities. Used in the model of `MathSpecialFunctions.cpp:147-155` (`convertDouble`). -/
def toInt (size : Nat) : D → Res ℤ
  | fin q => if -2 ^ (8 * size - 1) ≤ trunc q ∧ trunc q < 2 ^ (8 * size - 1) then .ok (trunc q) else .ub
  | _ => .ub

/-- `convertDoubleLong` (`size = sizeof(long)`) and `convertDoubleLongLong` (`size = 8`), `MathSpecialFunctions.cpp:147-155`.
`sign / 2.0` is exactly one half, with the sign. -/
def convertDouble (R : Rounding) (size : Nat) (d : D) : Res ℤ :=
  toInt size (add R d (fin (if ge d (fin 0) then 1 / 2 else -1 / 2)))

/-- The library functions. Used in the model of `MathSpecialFunctions.cpp:30-32` (`guess`). -/
structure Lib where
  erf : D → D
  exp : D → D
  log : D → D
  sqrt : D → D

/-- The first guess, `MathSpecialFunctions.cpp:30-32`. -/
def guess (R : Rounding) (L : Lib) (y : D) : D :=
  let c (q : ℚ) := fin (R.rnd q)
  let x := L.sqrt (mul R (c (-2)) (L.log (mul R (c (1 / 2)) (sub R (c 1) y))))
  mul R (c 0.7071067811865476)
    (sub R x (div R (add R (c 2.515517) (mul R x (add R (c 0.802853) (mul R x (c 0.010328)))))
      (add R (c 1) (mul R x (add R (c 1.432788) (mul R x (add R (c 0.189269) (mul R x (c 0.001308)))))))))

/-- One step of Newton's method, `MathSpecialFunctions.cpp:42`. -/
def newton (R : Rounding) (L : Lib) (y x y0 : D) : D :=
  add R x (mul R (mul R (sub R y y0) (L.exp (mul R x x))) (fin (R.rnd 0.886226925452758)))

/-- The loop, `MathSpecialFunctions.cpp:41-48`, at most `fuel` times; `none` when it has not ended by then. -/
def erfLoop (R : Rounding) (L : Lib) (y upper lower : D) : Nat → D → D → Option D
  | 0, _, _ => none
  | fuel + 1, x, y0 =>
    let x' := newton R L y x y0
    let y' := L.erf x'
    if lt upper y' || lt y' lower then erfLoop R L y upper lower fuel x' y' else some x'

/-- `inverseErf`, `MathSpecialFunctions.cpp:22-50`; `none` when the loop has not ended after `fuel` steps. -/
def inverseErf (R : Rounding) (L : Lib) (fuel : Nat) (y : D) : Option D :=
  if ge (D.abs y) (fin 1) then some nan
  else
    let x := guess R L y
    erfLoop R L y (mul R y (fin (R.rnd 1.00000000000001))) (mul R y (fin (R.rnd 0.99999999999999))) fuel x (L.erf x)

/-- `inverseUnitNormalCDF`, `MathSpecialFunctions.hpp:71-72`. -/
def inverseUnitNormalCDF (R : Rounding) (L : Lib) (fuel : Nat) (x : D) : Option D :=
  (inverseErf R L fuel (sub R (mul R (fin 2) x) (fin 1))).map (mul R (fin (R.rnd 1.4142135623730950488016887242097)))

/-- `unitNormalCDF`, `MathSpecialFunctions.hpp:41-48`. -/
def unitNormalCDF (R : Rounding) (L : Lib) (x : D) : D :=
  mul R (fin (1 / 2)) (add R (fin 1) (L.erf (mul R (fin (R.rnd 0.70710678118654752440084436210485)) x)))

/-- `probAbsNormal`, `MathSpecialFunctions.hpp:54-61`. -/
def probAbsNormal (R : Rounding) (L : Lib) (x : D) : D :=
  sub R (fin 1) (L.erf (mul R (fin (R.rnd 0.70710678118654752440084436210485)) (D.abs x)))

end Verif.MathFn
