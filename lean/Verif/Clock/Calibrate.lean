import Verif.Res
import Mathlib.Data.List.Sort
import Mathlib.Algebra.BigOperators.Group.List.Basic
import Mathlib.Algebra.Order.Field.Rat

/-!
# Model of the measurements of `Clock`

`/repo/src/Clock.cpp:145-244` and `274-390`. What the cycle counter and the time of day give is an input: a list of the readings of each round. Numbers of type `double` are exact here (a
measurement is the rounded quotient of such integers); `none` is what a division by 0 gives, an infinity that sorts last (0 divided by 0, which would break the sorting, is not told apart). The test on `conf95`, which is a comparison of doubles, is a parameter.
-/

namespace Verif.Clock.Cal

open Verif

/-- The part of a sorted list from the first to the third quarter, `Clock.cpp:237-241` and `351-355`. -/
def middle {α : Type} (l : List α) : List α := (l.take (3 * l.length / 4)).drop (l.length / 4)

/-- `Stats::mean`, as used at `Clock.cpp:242`, `356` and `374`. -/
def mean (l : List Rat) : Rat := l.sum / l.length

/-- What is read in one round of the loop of `Clock.cpp:310-363`: `cycles_a`, `tod_start`, `cycles_b`, the readings of the inner loop, `tod_end` and `cycles_d`. -/
structure Round where
  a : Nat
  todStart : Nat
  b : Nat
  cs : List Nat
  todEnd : Nat
  d : Nat
deriving DecidableEq, Repr

/-- `2^64`, for the arithmetic of `uint64_t` at `Clock.cpp:314-346`. -/
def wrap : Nat := 18446744073709551616

/-- `x - y` in `uint64_t`, `Clock.cpp:322` and `343-344`. -/
def sub64 (x y : Nat) : Nat := (x + wrap - y) % wrap

/-- The inner loop, `Clock.cpp:315-318`: the last reading. A list of readings that ends too early ends the loop here. -/
def spin (a stop : Nat) : Nat → List Nat → Nat
  | c, [] => c
  | c, x :: l => if a < c ∧ c < stop then spin a stop x l else c

/-- One measurement, `Clock.cpp:311-347`: `none` for a round that is thrown away (line 322), `some none` for an infinite rate. -/
def measure (target : Nat) (r : Round) : Option (Option Rat) :=
  let stop := (r.a + target) % wrap
  let c := spin r.a stop r.b r.cs
  if c ≤ r.a ∨ 10000 < sub64 c stop then none
  else
    let startMid := (r.a + r.b) % wrap / 2
    let endMid := (c + r.d) % wrap / 2
    let tod := sub64 r.todEnd r.todStart
    if tod = 0 then some none else some (some ((sub64 endMid startMid : Rat) / (1000000 * (tod / 4294967296))))

/-- `sort` at `Clock.cpp:349`, with the infinite ones last. -/
def sorted (l : List (Option Rat)) : List (Option Rat) := ((l.filterMap id).insertionSort (· ≤ ·)).map some ++ List.replicate (l.countP (· = none)) none

/-- What the middle of the measurements says: the mean if all are finite and the confidence interval is small, `Clock.cpp:348-358`. -/
def verdict (test : List Rat → Bool) (l : List (Option Rat)) : Option Rat :=
  let m := middle (sorted l)
  if m.all (·.isSome) then
    let m := m.filterMap id
    if test m then some (mean m) else none
  else none

/-- The test at `Clock.cpp:356` and `373` in exact arithmetic: `conf95() < mean() * max_conf95_rel`, where `conf95` is `1.96 * stddev / sqrt(n)` (`Stats.cpp:149-155`) and `stddev` is the square root of the
mean square of the distances from the mean. Both sides are squared. -/
def exactTest (rel : Rat) (l : List Rat) : Bool :=
  let m := mean l
  decide (0 < m * rel) && decide ((49 / 25) ^ 2 * mean (l.map fun x => (x - m) ^ 2) / l.length < (m * rel) ^ 2)

/-- How one try ends, `Clock.cpp:307-363`. -/
inductive Try where
  /-- the confidence interval is small enough -/
  | rate (x : Rat) (ms : List (Option Rat)) (rest : List Round)
  /-- more than 128 failures -/
  | failed (ms : List (Option Rat)) (rest : List Round)
  /-- no more readings: still running -/
  | running (ms : List (Option Rat))
deriving DecidableEq

/-- The loop of `Clock.cpp:310-363`. The pauses (331-339) and the message at 400 measurements (360-362) change nothing. -/
def tryLoop (test : List Rat → Bool) (target : Nat) : List (Option Rat) → Nat → List Round → Try
  | ms, _, [] => .running ms
  | ms, fails, r :: rest =>
    match measure target r with
    | none => if 128 < fails + 1 then .failed ms rest else
      if 40 ≤ ms.length then
        match verdict test ms with
        | some x => .rate x ms rest
        | none => tryLoop test target ms (fails + 1) rest
      else tryLoop test target ms (fails + 1) rest
    | some v =>
      let ms := ms ++ [v]
      if 40 ≤ ms.length then
        match verdict test ms with
        | some x => .rate x ms rest
        | none => tryLoop test target ms fails rest
      else tryLoop test target ms fails rest

/-- The loop over tries, `Clock.cpp:306-381`: `none` is still running. A try that had too many failures may have 40 measurements, which are judged again at line 373; the verdict on
them is the one that did not end the loop, so the try is given up. -/
def calibrate (test : List Rat → Bool) (target : Nat) : Nat → List Round → Option (Res (Rat × List (Option Rat)))
  | 0, _ => some .abort
  | tries + 1, rs =>
    match tryLoop test target [] 0 rs with
    | .running _ => none
    | .failed _ rest => calibrate test target tries rest
    | .rate x ms _ => some (if 200 < x then .ok (x, ms) else .abort)

/-- `estimated_cycles_per_quanta`, `Clock.cpp:236-242`, from the ten measurements in the order they were taken, before `round`. -/
def cyclesPerQuanta (l : List Nat) : Rat := mean ((middle l).map fun x : Nat => (x : Rat))

/-- `max_recalibrate_measure_time`, `Clock.cpp:195-202`. `none` is reading outside of the vector. -/
def maxMeasure (elapsed : List Int) : Option Int := ((elapsed.insertionSort (· ≤ ·))[elapsed.length / 4]?).map (2 * ·)

/-- `estimated_todtfrac_quanta`, `Clock.cpp:196-205`. -/
def quanta (delta : List Nat) : Option Nat := (delta.insertionSort (· ≤ ·))[delta.length / 4]?

/-- `estimateTodTfracLatency`, `Clock.cpp:168-174`, from the five measurements: `ceil(5 * 0.1)` is 1. -/
def latency (l : List Rat) : Option Rat := (l.insertionSort (· ≤ ·))[1]?

end Verif.Clock.Cal
