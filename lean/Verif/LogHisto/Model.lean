import Verif.Histo.Model
import Mathlib.Analysis.SpecialFunctions.Pow.Real

/-!
# Logarithmic histograms

`StatsHistogramLog` and `StatsHistogramLogAccum` of `/repo/src/StatsHistogram.cpp` and `/repo/include/Lintel/StatsHistogram.hpp`.

Values are real numbers. `Ar` gives what the machine makes of the arithmetic: `r` rounds the result of a division or a product, `lg` and `ex` are the `log` and `exp` of the C library.
`exact` is the arithmetic of the real numbers. Values are finite. A histogram whose bounds are equal divides by zero (line 373) and has an infinite `bin_scaling`; such a histogram is
not modelled, `new` is undefined for it. Bin counts (64 bits) do not overflow. Of the inherited statistic only the count is kept.
-/

namespace Verif.LogHisto

open Verif Histo

/-- Arithmetic. Used in the model of `StatsHistogram.cpp:345-377` (`new`). -/
structure Ar where
  r : ℝ → ℝ
  lg : ℝ → ℝ
  ex : ℝ → ℝ

/-- Exact arithmetic. Made of the parts of `StatsHistogram.cpp:345-377`. -/
noncomputable def exact : Ar := ⟨id, Real.log, Real.exp⟩

/-- The fields of `StatsHistogramLog`, `StatsHistogram.hpp:167-173`, with the count of the inherited statistic. -/
structure L where
  scal : Bool
  n : Nat
  small : ℝ
  high : ℝ
  scaling : ℝ
  bins : List Nat
  rescales : Nat
  count : Nat

/-- `reset`, `StatsHistogram.cpp:386-392`. The range is left as it is. -/
def reset (h : L) : L := { h with bins := List.replicate h.n 0, rescales := 0, count := 0 }

open Classical in
/-- The constructor, `StatsHistogram.cpp:345-377`. -/
noncomputable def new (A : Ar) (binsIn : Nat) (small high : ℝ) (scal : Bool) : Res L := do
  Res.require (decide (0 < binsIn))
  Res.require (decide (0 < small))
  Res.require (decide (small ≤ high))
  if small = high then .ub
  else pure (reset ⟨scal, 2 * ((binsIn + 1) / 2) % 2 ^ 32, small, high, A.r ((2 * ((binsIn + 1) / 2) % 2 ^ 32 : Nat) / A.lg (A.r (high / small))), [], 0, 0⟩)

open Classical in
/-- The conversion of `floor(x)` to `unsigned`, `StatsHistogram.cpp:407`: undefined outside of 32 bits. -/
noncomputable def toU32 (x : ℝ) : Res Nat := if 0 ≤ ⌊x⌋ ∧ ⌊x⌋ < 2 ^ 32 then .ok ⌊x⌋.toNat else .ub

open Classical in
/-- `sampleBin`, `StatsHistogram.cpp:403-412`. -/
noncomputable def sampleBin (A : Ar) (h : L) (x : ℝ) : Res Nat :=
  if x ≤ h.small then .ok 0
  else do
    let b ← toU32 (A.r (h.scaling * A.lg (A.r (x / h.small))))
    if h.n ≤ b then pure (h.n - 1) else pure b

/-- `binOffset`, `StatsHistogram.cpp:416-419`. -/
noncomputable def binOffset (A : Ar) (h : L) (i : ℝ) : ℝ := A.r (h.small * A.ex (A.r (i / h.scaling)))

/-- `binlow`, `StatsHistogram.hpp:196`. -/
noncomputable def binlow (A : Ar) (h : L) (i : Nat) : ℝ := binOffset A h i

/-- `binhigh`, `StatsHistogram.hpp:199` (`index+1` is 32-bit arithmetic). -/
noncomputable def binhigh (A : Ar) (h : L) (i : Nat) : ℝ := binOffset A h ((i + 1) % 2 ^ 32 : Nat)

/-- `bincenter`, `StatsHistogram.hpp:197`. -/
noncomputable def bincenter (A : Ar) (h : L) (i : Nat) : ℝ := binOffset A h (A.r (i + 0.5))

/-- `numRescales`, `StatsHistogram.hpp:201`. -/
def numRescales (_ : L) : Nat := 0

/-- `isScalable`, `StatsHistogram.hpp:202`. -/
def isScalable (_ : L) : Bool := false

open Classical in
/-- The loop of `StatsHistogram.cpp:431-439`; `.ub` when it takes more rounds than given. -/
noncomputable def scaleDown (A : Ar) (v : ℝ) : Nat → L → Res L
  | 0, h => if v < h.small then .ub else .ok h
  | m + 1, h =>
    if v < h.small then do
      let b ← halveDown (· + ·) 0 h.n h.bins
      scaleDown A v m { h with scaling := A.r (h.scaling / 2), small := A.r (h.high / A.ex (A.r (h.n / A.r (h.scaling / 2)))), bins := b }
    else .ok h

open Classical in
/-- The loop of `StatsHistogram.cpp:440-448`; `.ub` when it takes more rounds than given. -/
noncomputable def scaleUp (A : Ar) (v : ℝ) : Nat → L → Res L
  | 0, h => if h.high ≤ v then .ub else .ok h
  | m + 1, h =>
    if h.high ≤ v then do
      let b ← halveUp (· + ·) 0 h.n h.bins
      scaleUp A v m { h with scaling := A.r (h.scaling / 2), high := A.r (h.small * A.ex (A.r (h.n / A.r (h.scaling / 2)))), bins := b }
    else .ok h

open Classical in
/-- The scaling part of `add`, `StatsHistogram.cpp:428-449`. -/
noncomputable def addScale (A : Ar) (m : Nat) (h : L) (v : ℝ) : Res L :=
  if h.scal = true ∧ (v < h.small ∨ h.high ≤ v) then do
    let h' ← scaleDown A v m { h with rescales := h.rescales + 1 }
    scaleUp A v m h'
  else .ok h

/-- `bins[bin]++`, `StatsHistogram.cpp:451-452`, `742-743`, `751-752`. -/
noncomputable def bump (A : Ar) (h : L) (v : ℝ) : Res (Nat × L) := do
  let i ← sampleBin A h v
  let x ← PQ.rd h.bins i
  let b ← PQ.wr h.bins i (x + 1)
  pure (i, { h with bins := b })

open Classical in
/-- `add(double)`, `StatsHistogram.cpp:423-453`, with at most `m` rounds for each of its loops. -/
noncomputable def add (A : Ar) (m : Nat) (h : L) (v : ℝ) : Res L := do
  Res.require (decide (0 < v))
  let h ← addScale A m { h with count := h.count + 1 } v
  let x ← bump A h v
  pure x.2

open Classical in
/-- `add(index, data)`, `StatsHistogram.cpp:455-459`. -/
noncomputable def add2 (A : Ar) (m : Nat) (h : L) (i d : ℝ) : Res L := do
  Res.require (decide (i = d))
  add A m h i

/-- A call on a histogram. Not a function of the code; stands for the uses of `StatsHistogram.cpp:386-459`. -/
inductive Op where
  | add (v : ℝ)
  | add2 (i d : ℝ)
  | reset

/-- Not a function of the code; stands for the uses of `StatsHistogram.cpp:386-459`. -/
noncomputable def step (A : Ar) (m : Nat) (h : L) : Op → Res L
  | .add v => add A m h v
  | .add2 i d => add2 A m h i d
  | .reset => .ok (reset h)

/-- Not a function of the code; stands for the uses of `StatsHistogram.hpp:167-173`. -/
noncomputable def run (A : Ar) (m : Nat) : L → List Op → Res L
  | h, [] => .ok h
  | h, o :: os => do
    let h ← step A m h o
    run A m h os

open Classical in
/-- The loop of `StatsHistogram.cpp:485-488`: the bins after the current one, `lowend`, `highend` and `bin`. -/
noncomputable def percLoop (A : Ar) (target : ℝ) : List Nat → Nat → Nat → Nat → Res (Nat × Nat × Nat)
  | rest, lowend, highend, bin =>
    if ¬target ≤ A.r highend then
      match rest with
      | [] => .ub
      | b :: rest => percLoop A target rest highend (highend + b) (bin + 1)
    else .ok (lowend, highend, bin)

open Classical in
/-- `percentile`, `StatsHistogram.cpp:477-500`. -/
noncomputable def percentile (A : Ar) (h : L) (p : ℝ) : Res ℝ := do
  Res.require (decide (0 ≤ p ∧ p ≤ 1))
  let target := A.r (p * A.r h.count)
  let b ← PQ.rd h.bins 0
  let x ← percLoop A target (h.bins.drop 1) 0 b 0
  if x.2.1 = x.1 then do
    Res.require (decide (x.2.2 = 0))
    pure 0
  else pure (binOffset A h (A.r (A.r x.2.2 + A.r (A.r (target - A.r x.1) / A.r ((x.2.1 - x.1 : Nat) : ℝ)))))

/-- `mode`, `StatsHistogram.cpp:463-474`. -/
noncomputable def mode (A : Ar) (h : L) : Res ℝ := do
  let b ← PQ.rd h.bins 0
  pure (bincenter A h (modeBin (h.bins.drop 1) 1 b 0))

/-! ## `StatsHistogramLogAccum` -/

/-- `StatsHistogramLogAccum`, `StatsHistogram.hpp:231-255`. -/
structure LA where
  h : L
  val : List ℝ

/-- `reset`, `StatsHistogram.cpp:733-737`. -/
noncomputable def resetA (a : LA) : Res LA := do
  let v ← zeroUp 0 0 a.h.n a.val
  pure ⟨reset a.h, v⟩

/-- The constructor, `StatsHistogram.cpp:717-726`; the elements of the array are not initialised before `reset` (0 here). -/
noncomputable def newA (A : Ar) (binsIn : Nat) (small high : ℝ) : Res LA := do
  let h ← new A binsIn small high false
  resetA ⟨h, List.replicate h.n 0⟩

/-- `add(index_value, data_value)`, `StatsHistogram.cpp:748-754`; `add(value)` (lines 739-745) is the same with `value` as both. -/
noncomputable def addA (A : Ar) (a : LA) (i d : ℝ) : Res LA := do
  let x ← bump A { a.h with count := a.h.count + 1 } i
  let y ← PQ.rd a.val x.1
  let c ← PQ.wr a.val x.1 (A.r (y + d))
  pure ⟨x.2, c⟩

/-- A call on a histogram that sums up. Made of the parts of `StatsHistogram.cpp:386-453`. -/
inductive OpA where
  | add (i d : ℝ)
  | reset

/-- Made of the parts of `StatsHistogram.cpp:386-754`. -/
noncomputable def stepA (A : Ar) (a : LA) : OpA → Res LA
  | .add i d => addA A a i d
  | .reset => resetA a

/-- Made of the parts of `StatsHistogram.hpp:231-255`. -/
noncomputable def runA (A : Ar) : LA → List OpA → Res LA
  | a, [] => .ok a
  | a, o :: os => do
    let a ← stepA A a o
    runA A a os

end Verif.LogHisto
