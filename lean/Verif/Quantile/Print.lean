import Verif.Quantile.Model
import Verif.Histo.Model

/-!
# What `StatsQuantile` prints

`/repo/src/StatsQuantile.cpp:683-770`. The first line of `printTextRanges` (count, mean, deviation, extremes) is that of `Stats` and is left out. How a number is
written is a parameter: `label` writes a percentage and `val` a value, times the multiplier. The loops are given a number of rounds; running out of it is `ub` here,
and the theorems are for every number that is large enough.
-/

namespace Verif.Quantile

open Verif

variable {V : Type} [LinearOrder V] (c : Consts V)

/-- A printed quantile: the fraction asked for, the percentage printed, and the answer (`none` is NaN). Used in the model of `StatsQuantile.cpp:694-698` (`rangesFrom`). -/
structure Row (V : Type) where
  q : Rat
  percent : Rat
  value : Option V
deriving DecidableEq, Repr

/-- The loop `for(double quantile = step; Double::lt(quantile,1.0); quantile += step)`, `StatsQuantile.cpp:694-698` and `725-734`. -/
def rangesFrom (R : Flt.Rounding) (eps step : Rat) : Nat → Rat → Sk V → Res (Sk V × List (Row V))
  | 0, _, _ => .ub
  | fuel + 1, q, s =>
    if Histo.lt R.rnd eps q 1 then do
      let (s, v) ← getQuantile c R s q false
      let (s, rows) ← rangesFrom R eps step fuel (R.rnd (q + step)) s
      pure (s, ⟨q, R.rnd (q * 100), v⟩ :: rows)
    else pure (s, [])

/-- All of that loop, for `nranges`. With `0` the step is infinite, which is not less than 1. Used in the model of `StatsQuantile.cpp:689-708` (`romeRows`). -/
def ranges (R : Flt.Rounding) (eps : Rat) (nranges : Int) (fuel : Nat) (s : Sk V) : Res (Sk V × List (Row V)) :=
  if nranges = 0 then pure (s, []) else rangesFrom c R eps (R.rnd (1 / nranges)) fuel (R.rnd (1 / nranges)) s

/-- The loop over the tails, `StatsQuantile.cpp:699-706` (with `least = 1`) and `753-763` (with `least = 10`): each round prints two rows. The flag says whether
`", "` comes before the row (lines 754-756, 760). -/
def tailsFrom (R : Flt.Rounding) (least : Rat) : Nat → Rat → Sk V → Res (Sk V × List (Bool × Row V))
  | 0, _, _ => .ub
  | fuel + 1, t, s =>
    if least ≤ R.rnd (t * s.count) then do
      let (s, v) ← getQuantile c R s (R.rnd (1 - t)) false
      let t2 := R.rnd (t / 2)
      let (s, v2) ← getQuantile c R s (R.rnd (1 - t2)) false
      let (s, rows) ← tailsFrom R least fuel (R.rnd (t2 / 5)) s
      pure (s, (decide (t < R.rnd (1 / 20)), ⟨R.rnd (1 - t), R.rnd (100 * R.rnd (1 - t)), v⟩) :: (true, ⟨R.rnd (1 - t2), R.rnd (100 * R.rnd (1 - t2)), v2⟩) :: rows)
    else pure (s, [])

/-- The tails, from one in ten. Used in the model of `StatsQuantile.cpp:689-708` (`romeRows`). -/
def tails (R : Flt.Rounding) (least : Rat) (fuel : Nat) (s : Sk V) : Res (Sk V × List (Bool × Row V)) := tailsFrom c R least fuel (R.rnd (1 / 10)) s

/-- The rows of `printRome`, `StatsQuantile.cpp:689-708`. -/
def romeRows (R : Flt.Rounding) (eps : Rat) (nrange : Int) (fuel : Nat) (s : Sk V) : Res (Sk V × List (Row V)) :=
  if s.count = 0 then pure (s, [])
  else do
    let (s, a) ← ranges c R eps nrange fuel s
    let (s, b) ← tails c R 1 fuel s
    pure (s, a ++ b.map Prod.snd)

/-- Writing rows of ranges, `StatsQuantile.cpp:726-733`; `k` is `nquantiles`. -/
def rangeCells (label : Rat → List Char) (val : Option V → List Char) : Nat → List (Row V) → List Char
  | _, [] => []
  | k, r :: l => (if k % 10 = 0 then "\n    ".toList ++ label r.percent ++ "%: ".toList else ", ".toList) ++ val r.value ++ rangeCells label val (k + 1) l

/-- `printTextRanges` after its first line, `StatsQuantile.cpp:717-736`; `own` is `print_nrange`, `about` what line 723 prints. -/
def rangesText (R : Flt.Rounding) (eps : Rat) (label : Rat → List Char) (val : Option V → List Char) (about : Int → List Char) (own nranges : Int) (fuel : Nat) (s : Sk V) :
    Res (Sk V × List Char) :=
  let n := if nranges = -1 then own else nranges
  if s.count = 0 then pure (s, [])
  else do
    let (s, rows) ← ranges c R eps n fuel s
    pure (s, "    quantiles about every ".toList ++ about n ++ " data points:".toList ++ rangeCells label val 0 rows ++ "\n".toList)

/-- Writing rows of tails, `StatsQuantile.cpp:754-761`. -/
def tailCells (label : Rat → List Char) (val : Option V → List Char) : List (Bool × Row V) → List Char
  | [] => []
  | r :: l => (if r.1 then ", ".toList else []) ++ label r.2.percent ++ "%: ".toList ++ val r.2.value ++ tailCells label val l

/-- `printTextTail`, `StatsQuantile.cpp:750-765`. -/
def tailText (R : Flt.Rounding) (label : Rat → List Char) (val : Option V → List Char) (fuel : Nat) (s : Sk V) : Res (Sk V × List Char) := do
  let (s, rows) ← tails c R 10 fuel s
  pure (s, "  tails: ".toList ++ tailCells label val rows ++ "\n".toList)

end Verif.Quantile
