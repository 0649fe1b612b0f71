/-! # mercury-plot axplusb: two lines through the data

Model of `axplusb` (src/mercury-plot.in:1483-1591): the points of a plot are cut into a left and a right part, a line is fitted to each part that has at least three points, and the cut with the smallest sum of the deviations is reported.

Simplified: numbers are rationals (no rounding); the fit of `Statistics::OLS` is a function `fit` from the points to the deviation and the two coefficients, `none` if it fails, whereupon the program dies (lines 1534-1535, 1546-1547). The tests whether there is such a plot and whether its file can be read (1486-1518) are left out: the points are given. -/

namespace Verif.Mercury.Split

variable {P : Type}

/-- A fitted line: deviation and coefficients. -/
structure Line where
  sigma : Rat
  a : Rat
  b : Rat
deriving DecidableEq, Repr

/-- Lines 1529-1540 and 1542-1552: a part with less than three points has no line; the outer `none` if the fit fails. -/
def part (fit : List P → Option Line) (ps : List P) : Option (Option Line) :=
  if 3 ≤ ps.length then (fit ps).map some else some none

/-- Lines 1554-1557: a part without a line counts as much as the other one; Perl's undefined counts as 0. -/
def sigmaSum (l r : Option Line) : Rat :=
  match l, r with
  | some x, some y => x.sigma + y.sigma
  | some x, none => x.sigma + x.sigma
  | none, some y => y.sigma + y.sigma
  | none, none => 0

/-- The best so far: the cut, the sum and the two lines. -/
structure Best where
  split : Nat
  sigma : Rat
  left : Option Line
  right : Option Line
deriving DecidableEq, Repr

/-- `$best_sigma`, at first 100 (line 1522). -/
def limit : Option Best → Rat
  | none => 100
  | some b => b.sigma

/-- The loop over the cuts, lines 1524-1570, from cut `i` with `k` left to do. `none` if the program dies. At first there is no cut (line 1521). -/
def loop (fit : List P → Option Line) (ps : List P) : Nat → Nat → Option Best → Option (Option Best)
  | 0, _, best => some best
  | k + 1, i, best =>
    match part fit (ps.take (i + 1)) with
    | none => none
    | some l =>
      match part fit (ps.drop (i + 1)) with
      | none => none
      | some r =>
        let s := sigmaSum l r
        loop fit ps k (i + 1) (if s < limit best then some ⟨i, s, l, r⟩ else best)

/-- What `axplusb` says. -/
inductive Said where
  | few
  | dies
  | nothing
  | found (b : Best)
deriving DecidableEq, Repr

/-- `axplusb` from line 1515. -/
def axplusb (fit : List P → Option Line) (ps : List P) : Said :=
  if ps.length < 3 then .few
  else
    match loop fit ps ps.length 0 none with
    | none => .dies
    | some none => .nothing
    | some (some b) => .found b

end Verif.Mercury.Split
