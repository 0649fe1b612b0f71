import Mathlib.Analysis.SpecialFunctions.Gaussian.GaussianIntegral
import Mathlib.MeasureTheory.Integral.IntervalIntegral.Basic
import Verif.Res

/-!
# Model of `drawRandomLogNormal` (`/repo/src/drawRandomLogNormal.cpp`)

Over the real numbers: rounding, overflow and NaN of doubles are left out, except in `normal_random_limit`, whose loop relies on them. `erf`, `exp`, `log` and `sqrt` are the real functions.
Vectors of two are pairs, the Jacobian is a 2 by 2 matrix by rows.
-/

namespace Verif.LogNormal
open Verif Real

/-- `erf` of the C library. Used in the model of `drawRandomLogNormal.cpp:88-107` (`logNormal`). -/
noncomputable def erf (x : ℝ) : ℝ := 2 / √π * ∫ t in (0 : ℝ)..x, exp (-t ^ 2)

/-- `logNormal`, `drawRandomLogNormal.cpp:88-107`. -/
noncomputable def logNormal (x logMean logSigma upLimit : ℝ) : ℝ :=
  if x < logMean * 1e-6 then 0
  else if upLimit ≤ x then 0
  else
    let normal := (1 + erf ((log upLimit - logMean) / √2 / logSigma)) / 2
    exp (-(log x - logMean) * (log x - logMean) / 2 / logSigma / logSigma) / √(2 * π) / logSigma / x / normal

/-- `momentLogNormal`, `drawRandomLogNormal.cpp:120-128`. -/
noncomputable def momentLogNormal (logMean logSigma upLimit : ℝ) (power : ℕ) : ℝ :=
  exp (power * logMean + power * power * logSigma * logSigma / 2) *
    (1 + erf ((upLimit - logMean - power * logSigma * logSigma) / √2 / logSigma)) /
    (1 + erf ((upLimit - logMean) / √2 / logSigma))

/-- Used in the model of `drawRandomLogNormal.cpp:168-185` (`solve2`). -/
abbrev Vec := ℝ × ℝ

/-- Used in the model of `drawRandomLogNormal.cpp:168-185` (`solve2`). -/
structure Mat where
  a : ℝ
  b : ℝ
  c : ℝ
  d : ℝ

open Classical in
/-- `solve2`, `drawRandomLogNormal.cpp:168-185`: whether it worked, and `x`. -/
noncomputable def solve2 (m : Mat) (r : Vec) : Bool × Vec :=
  let d := m.a * m.d - m.b * m.c
  if |d| < 1e-6 then (false, (0, 0)) else (true, ((r.1 * m.d - r.2 * m.b) / d, (r.2 * m.a - r.1 * m.c) / d))

open Classical in
/-- The loop of `findZero`, `drawRandomLogNormal.cpp:219-256`, with the number of trials left. -/
noncomputable def findZero (func : Vec → Vec × Mat) (tolx tolf : ℝ) : ℕ → Vec → Bool × Vec
  | 0, x => (false, x)
  | trials + 1, x =>
    let fj := func x
    if |fj.1.1| + |fj.1.2| ≤ tolf then (true, x)
    else
      let s := solve2 fj.2 (-fj.1.1, -fj.1.2)
      if s.1 = false then (false, x)
      else
        let y : Vec := (x.1 + s.2.1, x.2 + s.2.2)
        if |s.2.1| + |s.2.2| ≤ tolx then (true, y) else findZero func tolx tolf trials y

/-- The two target functions of `targetFunc`, `drawRandomLogNormal.cpp:416-428`. -/
noncomputable def target (mean sigma upLimit : ℝ) (x : Vec) : Vec :=
  (momentLogNormal x.1 x.2 (log upLimit) 1 - mean,
   momentLogNormal x.1 x.2 (log upLimit) 2 - momentLogNormal x.1 x.2 (log upLimit) 1 * momentLogNormal x.1 x.2 (log upLimit) 1 - sigma * sigma)

open Classical in
/-- A step for the derivative, `drawRandomLogNormal.cpp:465-471`. -/
noncomputable def stepped (x : ℝ) : ℝ := if |x| < 1 then x + 1e-3 else x + 1e-3 * |x|

/-- `targetFunc`, `drawRandomLogNormal.cpp:412-492`. -/
noncomputable def targetFunc (mean sigma upLimit : ℝ) (x : Vec) : Vec × Mat :=
  let f := target mean sigma upLimit x
  let f0 := target mean sigma upLimit (stepped x.1, x.2)
  let f1 := target mean sigma upLimit (x.1, stepped x.2)
  (f, ⟨(f0.1 - f.1) / (stepped x.1 - x.1), (f1.1 - f.1) / (stepped x.2 - x.2), (f0.2 - f.2) / (stepped x.1 - x.1), (f1.2 - f.2) / (stepped x.2 - x.2)⟩)

/-- `solveLogNormal`, `drawRandomLogNormal.cpp:518-556`: the logarithmic mean and sigma, if it succeeded. -/
noncomputable def solveLogNormal (mean sigma upLimit : ℝ) : Option Vec :=
  let x1 := √(log (sigma * sigma / mean / mean + 1))
  let x0 := log mean - x1 * x1 / 2
  let r := findZero (targetFunc mean sigma upLimit) 1e-6 1e-3 500 (x0, x1)
  if r.1 then some r.2 else none

/-! ## The random numbers -/

/-- A double without rounding: a real number, an infinity or NaN. Zeros are positive. Used in the model of `drawRandomLogNormal.cpp:572` (`candidate`). -/
inductive Dbl where
  | fin (x : ℝ)
  | inf
  | negInf
  | nan

open Classical in
/-- `log`. Used in the model of `drawRandomLogNormal.cpp:572` (`candidate`). -/
noncomputable def Dbl.log (x : ℝ) : Dbl := if 0 < x then .fin (Real.log x) else if x = 0 then .negInf else .nan

open Classical in
/-- Multiplication by a real number. Used in the model of `drawRandomLogNormal.cpp:572` (`candidate`). -/
noncomputable def Dbl.mul (a : ℝ) : Dbl → Dbl
  | .fin x => .fin (a * x)
  | .inf => if 0 < a then .inf else if a < 0 then .negInf else .nan
  | .negInf => if 0 < a then .negInf else if a < 0 then .inf else .nan
  | .nan => .nan

open Classical in
/-- Division by a real number that is not negative. Used in the model of `drawRandomLogNormal.cpp:572` (`candidate`). -/
noncomputable def Dbl.div (x : Dbl) (b : ℝ) : Dbl :=
  match x with
  | .fin x => if b ≠ 0 then .fin (x / b) else if 0 < x then .inf else if x < 0 then .negInf else .nan
  | .inf => .inf
  | .negInf => .negInf
  | .nan => .nan

open Classical in
/-- `sqrt`. Used in the model of `drawRandomLogNormal.cpp:572` (`candidate`). -/
noncomputable def Dbl.sqrt : Dbl → Dbl
  | .fin x => if x < 0 then .nan else .fin √x
  | .inf => .inf
  | .negInf => .nan
  | .nan => .nan

/-- `<=`, false when one side is NaN. -/
def Dbl.le : Dbl → Dbl → Prop
  | .nan, _ => False
  | _, .nan => False
  | .negInf, _ => True
  | _, .inf => True
  | .fin x, .fin y => x ≤ y
  | .inf, _ => False
  | .fin _, .negInf => False

/-- `v * sqrt(-2. * log(vr)/vr)`, `drawRandomLogNormal.cpp:572`, `576`. -/
noncomputable def candidate (v vr : ℝ) : Dbl := Dbl.mul v (Dbl.sqrt (Dbl.div (Dbl.mul (-2) (Dbl.log vr)) vr))

open Classical in
/-- `normal_random_limit`, `drawRandomLogNormal.cpp:562-583`, with the numbers `drand48` gives, two for each round. Out of numbers, it has not returned yet. -/
noncomputable def normalRandomLimit (upLimit : Dbl) : List (ℝ × ℝ) → Option Dbl
  | [] => none
  | u :: us =>
    let v1 := 2 * u.1 - 1
    let v2 := 2 * u.2 - 1
    let vr := v1 * v1 + v2 * v2
    if 0 < vr ∨ vr ≤ 1 then
      if (candidate v1 vr).le upLimit then some (candidate v1 vr)
      else if (candidate v2 vr).le upLimit then some (candidate v2 vr)
      else normalRandomLimit upLimit us
    else normalRandomLimit upLimit us

/-! ## The program -/

/-- How `main` ends, or goes on. Used in the model of `drawRandomLogNormal.cpp:620-690` (`main`). -/
inductive Main where
  | usage
  | noSolution
  | done
deriving DecidableEq, Repr

/-- `main`, `drawRandomLogNormal.cpp:620-690`: `number` is `strtod`, `none` when it uses nothing; `seedOk` is whether `strtol` uses anything; `solvable` is `solveLogNormal`. Without arguments
`argv[1]` is null and is compared with `-v`, which is undefined. -/
def main {α : Type} [LE α] [DecidableLE α] (zero : α) (number : String → Option α) (seedOk : String → Bool) (solvable : α → α → α → Bool) (args : List String) : Res Main :=
  match args with
  | [] => .ub
  | a :: as =>
    let rest := if a = "-v" then as else a :: as
    match rest with
    | m :: s :: u :: more =>
      if 1 < more.length then .ok .usage
      else match number m, number s, number u with
        | some m, some s, some u =>
          if m ≤ zero ∨ s ≤ zero ∨ u ≤ zero then .ok .usage
          else if (more.all seedOk) = false then .ok .usage
          else if solvable m s u then .ok .done else .ok .noSolution
        | _, _, _ => .ok .usage
    | _ => .ok .usage

end Verif.LogNormal
