import Verif.Res
import Verif.Flt.Round
import Verif.Clock.Model

/-!
# Model of `PThreadCond::timedWait` (`/repo/include/Lintel/PThread.hpp.in:333-349`)

The deadline it computes; waiting itself is the system's. `time_t` and `long` have 64 bits. Infinite and not-a-number
durations are left out; a finite duration is any rational that is a double.
-/

namespace Verif.Cond

open Verif.Flt

/-- Used in the model of `PThread.hpp.in:342-346` (`normalise`). -/
structure Timespec where
  sec : Int
  nsec : Int
deriving DecidableEq

/-- `static_cast<time_t>(x)` of a whole number: undefined when it does not fit. Used in the model of `PThread.hpp.in:333-349` (`deadline`). -/
def toTime (x : ℤ) : Res Int := if -(2 ^ 63) ≤ x ∧ x < 2 ^ 63 then .ok x else .ub

/-- Signed 64-bit addition. Used in the model of `PThread.hpp.in:342-346` (`normalise`). -/
def add64 (a b : Int) : Res Int := if -(2 ^ 63) ≤ a + b ∧ a + b < 2 ^ 63 then .ok (a + b) else .ub

/-- Lines 342-346. -/
def normalise (sec nsec : Int) : Res Timespec :=
  if 1000000000 ≤ nsec then do
    let sec ← add64 sec 1
    Res.require (decide (nsec - 1000000000 < 1000000000))
    pure ⟨sec, nsec - 1000000000⟩
  else pure ⟨sec, nsec⟩

/-- `timedWait`, lines 333-349; `now` is what `clock_gettime` gives. -/
def deadline (F : Rounding) (now : Timespec) (seconds : ℚ) : Res Timespec := do
  Res.require (decide (0 ≤ seconds))
  let whole ← toTime ⌊seconds⌋
  let sec ← add64 now.sec whole
  let frac ← toTime (Clock.cround (F.rnd (1000000000 * F.rnd (seconds - ⌊seconds⌋))))
  let nsec ← add64 now.nsec frac
  normalise sec nsec

end Verif.Cond
