import Verif.Res
import Verif.Flt.Round

/-!
# Model of `Clock` (`/repo/include/Lintel/Clock.hpp`, `/repo/src/Clock.cpp`)

Times (`Tfrac`) and cycle counts are naturals below `2^64`, seconds and sub-seconds naturals below `2^32`. Every
floating-point operation is exact arithmetic followed by `F.rnd`, a rounding to a nearest double. The numbers
occurring are far from the limits of the exponent. The system's time of day and the cycle counter are inputs.
-/

namespace Verif.Clock

open Verif.Flt

/-- `static_cast<uint32_t>(x)`: the fraction is dropped; undefined when the result does not fit. Used in the model of `Clock.hpp:193-208` (`secondsToTfrac`). -/
def toU32 (x : ℚ) : Res Nat := if x ≤ -1 ∨ 2 ^ 32 ≤ x then .ub else .ok ⌊x⌋.toNat

/-- `static_cast<uint64_t>(x)`. Used in the model of `Clock.hpp:210-214` (`secMicroToTfrac`). -/
def toU64 (x : ℚ) : Res Nat := if x ≤ -1 ∨ 2 ^ 64 ≤ x then .ub else .ok ⌊x⌋.toNat

/-- `round(x)` of libm: halves away from zero, used here for `x ≥ 0` only. Used in the model of `Clock.hpp:193-208` (`secondsToTfrac`). -/
def cround (x : ℚ) : ℤ := ⌊x + 1 / 2⌋

/-- `Clock::secondsToTfrac`, `Clock.hpp:193-208`. -/
def secondsToTfrac (F : Rounding) (seconds : ℚ) : Res Nat := do
  Res.require (decide (seconds < 4294967295))
  let secOnly ← toU32 ⌊seconds⌋
  let tmp := cround (F.rnd (F.rnd (seconds - secOnly) * 4294967296))
  let lower ← toU32 tmp
  pure ((secOnly * 2 ^ 32 + lower) % 2 ^ 64)

/-- `Clock::secMicroToTfrac`, `Clock.hpp:210-214`. -/
def secMicroToTfrac (F : Rounding) (seconds micro : Nat) : Res Nat := do
  let c ← toU64 ⌈F.rnd (F.rnd (micro * 4294967296) / 1000000)⌉
  pure ((seconds * 2 ^ 32 + c) % 2 ^ 64)

/-- `Clock::secNanoToTfrac`, `Clock.hpp:216-220`. -/
def secNanoToTfrac (F : Rounding) (seconds nano : Nat) : Res Nat := do
  let c ← toU64 ⌈F.rnd (F.rnd (nano * 4294967296) / 1000000000)⌉
  pure ((seconds * 2 ^ 32 + c) % 2 ^ 64)

/-- `Clock::TfracToSec`, `Clock.hpp:223-225`. -/
def tfracToSec (t : Nat) : Nat := t / 2 ^ 32 % 2 ^ 32

/-- `Clock::TfracToMicroSec`, `Clock.hpp:228-234`. -/
def tfracToMicroSec (F : Rounding) (t : Nat) : Res Nat :=
  let low : Nat := t % 2 ^ 32
  let tmp := F.rnd (F.rnd ((low : ℚ) * 1000000) / 4294967296)
  toU32 ⌊tmp⌋

/-- `Clock::TfracToNanoSec`, `Clock.hpp:237-243`. -/
def tfracToNanoSec (F : Rounding) (t : Nat) : Res Nat :=
  let low : Nat := t % 2 ^ 32
  let tmp := F.rnd (F.rnd ((low : ℚ) * 1000000000) / 4294967296)
  toU32 ⌊tmp⌋

/-- `Clock::TfracToTll`, `Clock.hpp:245-247`. -/
def tfracToTll (F : Rounding) (t : Nat) : Res Nat := do
  let us ← tfracToMicroSec F t
  pure (tfracToSec t * 1000000 + us)

/-- `Clock::TfracToDouble`, `Clock.hpp:250-253`. -/
def tfracToDouble (F : Rounding) (t : Nat) : ℚ :=
  F.rnd (tfracToSec t + F.rnd ((t % 2 ^ 32 : Nat) / 4294967296))

/-- `Clock::TfracOffsetDouble`, `Clock.hpp:269-285`. The conversion of the offset to `int64_t` keeps its bits; negating
the smallest `int64_t` is undefined. -/
def tfracOffsetDouble (F : Rounding) (t : Nat) (offset : ℚ) : Res Nat :=
  if offset < 0 then do
    let c ← secondsToTfrac F (-offset)
    if c = 2 ^ 63 then .ub else pure ((t + (2 ^ 64 - c)) % 2 ^ 64)
  else do
    let c ← secondsToTfrac F offset
    pure ((t + c) % 2 ^ 64)

/-! ## The cycle-counter clock -/

/-- `Clock::AllowUnsafeFreqScalingOpt`, `Clock.hpp:290-297`. -/
inductive Mode | yes | warnFast | warnSlow | slow | no | useTod
deriving DecidableEq

/-- The static variables, `Clock.cpp:37-45`. `rate = none` is the initial `-Double::Inf` of `clock_rate`;
`inv = none` that of `inverse_clock_rate_tfrac`. -/
structure Globals where
  mode : Mode
  mayScale : Bool
  rate : Option ℚ
  inv : Option ℚ
  maxMeasure : Nat

/-- `Clock::isCalibrated`, `Clock.cpp:392-394`. -/
def isCalibrated (g : Globals) : Bool :=
  (match g.rate with | none => false | some r => decide (0 < r)) || decide (g.mode = .useTod)

/-- `Clock::allowUnsafeFrequencyScaling`, `Clock.cpp:131-139` (without the warning). -/
def allow (g : Globals) (m : Mode) : Globals :=
  if g.rate = none ∨ m = g.mode then { g with mode := m } else g

/-- `may_have_frequency_scaling` after `checkForPossibleFrequencyScaling()`, `Clock.cpp:112-128`, which is not called
in mode `AUFSO_Yes` (`Clock.cpp:288-290`). -/
def scalingAfter (g : Globals) (scaling : Bool) : Bool := if g.mode = .yes then g.mayScale else scaling

/-- `Clock::calibrateClock`, `Clock.cpp:273-390`. What the measurements give is an input: `scaling` the answer of
`doCFPFS()`, `maxMeasure` and `mhz` the measured values; calibration that fails aborts. -/
def calibrateClock (F : Rounding) (g : Globals) (scaling : Bool) (maxMeasure : Nat) (mhz : ℚ) : Res Globals :=
  if g.rate ≠ none then pure g
  else if g.mode = .useTod then pure { g with mayScale := true, rate := some 0 }
  else do
    let mayScale := scalingAfter g scaling
    if g.mode = .no && mayScale then .abort
    else do
      -- setClockRate, Clock.cpp:250-271
      Res.require (decide ((maxMeasure : ℚ) < F.rnd (100 * mhz)))
      Res.require (decide (200 < mhz))
      pure { g with mayScale := mayScale, rate := some mhz, maxMeasure := maxMeasure,
                    inv := some (F.rnd (F.rnd (1 / mhz) * F.rnd (4294967296 / 1000000))) }

/-- The member variables of a clock, `Clock.hpp:353-355`. -/
structure Clk where
  lastCal : Nat
  lastCc : Nat
  lastRecal : Nat
  interval : Nat
deriving DecidableEq

/-- `extra_multiplier`, `Clock.cpp:495`. -/
def extraMul (inv : Option ℚ) : ℚ := match inv with | none => 1 | some i => if i < 1 then 1 else i

/-- `Clock::setRecalibrateIntervalSeconds`, `Clock.cpp:492-507`. With `clock_rate` still `-Inf`, the product is `-Inf`
for a positive interval (the check passes and the conversion of `-Inf` is undefined), `+Inf` for a negative one and not
a number for zero (the check fails). -/
def setInterval (F : Rounding) (g : Globals) (c : Clk) (seconds : ℚ) : Res Clk :=
  match g.rate with
  | none => if 0 < seconds then .ub else .abort
  | some r => do
    let cycles := F.rnd (F.rnd (seconds * 1000000) * r)
    Res.require (decide (F.rnd (cycles * extraMul g.inv) < 2 ^ 30))
    let n ← toU64 cycles
    pure { c with lastRecal := 0, interval := n }

/-- The first statement of `Clock::Clock(bool)`, `Clock.cpp:401-405`. -/
def ensureCalibrated (F : Rounding) (g : Globals) (allowCalibration scaling : Bool) (maxMeasure : Nat) (mhz : ℚ) : Res Globals :=
  if isCalibrated g then pure g
  else do
    Res.require allowCalibration
    calibrateClock F g scaling maxMeasure mhz

/-- `Clock::Clock(bool)`, `Clock.cpp:396-407`. -/
def newClock (F : Rounding) (g : Globals) (allowCalibration scaling : Bool) (maxMeasure : Nat) (mhz : ℚ) :
    Res (Globals × Clk) := do
  let g' ← ensureCalibrated F g allowCalibration scaling maxMeasure mhz
  let c ← setInterval F g' ⟨0, 0, 0, 0⟩ (F.rnd (1 / 1000))
  pure (g', c)

/-- What one call of `todccTfrac()` sees of the machine: the cycle counter on entry, and, when it recalibrates, the
counter before and after asking for the time of day `tod`. Used in the model of `Clock.cpp:436-490` (`recalibrate`). -/
structure Seen where
  cc : Nat
  start : Nat
  tod : Nat
  stop : Nat
deriving DecidableEq

/-- `Clock::todccTfrac_recalibrate`, `Clock.cpp:436-490` (without the statistics and the debug message). -/
def recalibrate (g : Globals) (c : Clk) (e : Seen) : Res (Clk × Nat) :=
  if g.mayScale && decide (g.mode = .no) then .abort
  else if g.mayScale && (decide (g.mode = .warnSlow) || decide (g.mode = .slow) || decide (g.mode = .useTod)) then pure (c, e.tod)
  else do
    Res.require (match g.rate with | none => false | some r => decide (0 < r))
    Res.require (decide (c.lastCal ≤ e.tod))
    if e.stop ≤ e.start ∨ g.maxMeasure ≤ e.stop - e.start then pure ({ c with lastRecal := 0 }, e.tod)
    else
      let mid := (e.start + e.stop) % 2 ^ 64 / 2
      pure ({ c with lastCal := e.tod, lastCc := mid, lastRecal := mid }, e.tod)

/-- The difference of two cycle counts, `Clock.hpp:160`. -/
def delta (c : Clk) (e : Seen) : Nat := (e.cc + (2 ^ 64 - c.lastRecal)) % 2 ^ 64

/-- `Clock::todccTfrac_incremental`, `Clock.hpp:158-169`. The first conversion wraps, the second is undefined when the
number does not fit. `inverse_clock_rate_tfrac` still `-Inf` makes the second conversion undefined. -/
def todcc (F : Rounding) (g : Globals) (c : Clk) (e : Seen) : Res (Clk × Nat) :=
  if e.cc ≤ c.lastCc ∨ c.interval < delta c e then recalibrate g c e
  else
    match g.inv with
    | none => .ub
    | some i => do
      let d ← toU32 (F.rnd (((delta c e % 2 ^ 32 : Nat) : ℚ) * i))
      pure ({ c with lastCc := e.cc }, (c.lastCal + d) % 2 ^ 64)

end Verif.Clock
