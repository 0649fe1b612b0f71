import Verif.Flt.Round
import Verif.Res

/-!
# Basic statistics

`Stats` of `/repo/src/Stats.cpp` and `/repo/include/Lintel/Stats.hpp`. `r` rounds to a double after every operation; with `r = id` the arithmetic is exact.
Values are finite (`add` of a NaN is checked in debug builds only); the range of exponents and of the count (64 bits) is not modelled. `reset_count` and
`is_assigned` are left out.
-/

namespace Verif.Stats

open Verif

/-- The fields of `Stats`, `Stats.hpp:56-60`. `lo = none` is infinity, `hi = none` is minus infinity. -/
structure St where
  number : Nat
  sum : Rat
  sumsq : Rat
  lo : Option Rat
  hi : Option Rat
deriving Repr, DecidableEq

/-- `reset`, `Stats.cpp:77-85`. -/
def reset : St := ⟨0, 0, 0, none, none⟩

/-- `value < min_value` for the fields, with infinity; `Stats.cpp:96`, `108`. -/
def ltLo : Option Rat → Option Rat → Bool
  | none, _ => false
  | some _, none => true
  | some a, some b => decide (a < b)

/-- `value > max_value` for the fields, with minus infinity; `Stats.cpp:99`, `111`. -/
def gtHi : Option Rat → Option Rat → Bool
  | none, _ => false
  | some _, none => true
  | some a, some b => decide (b < a)

/-- `add(double)`, `Stats.cpp:87-101`. -/
def add (r : Rat → Rat) (s : St) (v : Rat) : St :=
  { number := s.number + 1
    sum := r (s.sum + v)
    sumsq := r (s.sumsq + r (v * v))
    lo := if ltLo (some v) s.lo then some v else s.lo
    hi := if gtHi (some v) s.hi then some v else s.hi }

/-- `add(const Stats &)`, `Stats.cpp:103-114`. Merging an object into itself reads each field before writing it. -/
def merge (r : Rat → Rat) (s t : St) : St :=
  { number := s.number + t.number
    sum := r (s.sum + t.sum)
    sumsq := r (s.sumsq + t.sumsq)
    lo := if ltLo t.lo s.lo then t.lo else s.lo
    hi := if gtHi t.hi s.hi then t.hi else s.hi }

/-- `mean`, `Stats.cpp:122-129`. -/
def mean (r : Rat → Rat) (s : St) : Rat := if s.number = 0 then 0 else r (s.sum / r s.number)

/-- `variance`, `Stats.cpp:132-137`. -/
def variance (r : Rat → Rat) (s : St) : Rat :=
  if s.number = 0 then 0 else r (r (s.sumsq / r s.number) - r (mean r s * mean r s))

/-- How a statistic came about. Made of the parts of `Stats.cpp:77-114`. -/
inductive Hist where
  | new
  | add (h : Hist) (v : Rat)
  | merge (h h' : Hist)
  | reset (h : Hist)

/-- Made of the parts of `Stats.cpp:77-114`. -/
def eval (r : Rat → Rat) : Hist → St
  | .new => reset
  | .add h v => add r (eval r h) v
  | .merge h h' => merge r (eval r h) (eval r h')
  | .reset _ => reset

end Verif.Stats
