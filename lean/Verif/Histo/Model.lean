import Verif.Stats.Model
import Verif.Clock.Model
import Verif.PQ.Model

/-!
# Uniform histograms

`StatsHistogramUniform`, `StatsHistogramUniformAccum` and `StatsHistogramGroup` of `/repo/src/StatsHistogram.cpp`, and `Double::gt` of
`/repo/include/Lintel/Double.hpp`. `r` rounds to a double after every operation; with `r = id` the arithmetic is exact. Values are finite and the range of
exponents is not modelled, so the checks against `numeric_limits<double>::max()` (lines 110, 130) pass. Bin counts (64 bits) do not overflow. Running out of memory
is not modelled; the old array that is not freed when the histogram grows (lines 123, 145) is not either.
-/

namespace Verif.Histo

open Verif

/-- The fields of `StatsHistogramUniform`, `StatsHistogram.hpp:102-111`, with the inherited statistic. -/
structure H where
  scal : Bool
  grow : Bool
  n : Nat
  low : Rat
  high : Rat
  width : Rat
  bins : List Nat
  rescales : Nat
  st : Stats.St
deriving Repr, DecidableEq

/-- `reset`, `StatsHistogram.cpp:74-80`. -/
def reset (r : Rat → Rat) (h : H) : H :=
  { h with st := Stats.reset, bins := List.replicate h.n 0, width := r (r (h.high - h.low) / r h.n), rescales := 0 }

/-- The constructor, `StatsHistogram.cpp:42-65`. -/
def new (r : Rat → Rat) (binsIn : Nat) (low high : Rat) (scal grow : Bool) : Res H := do
  Res.require (decide (low ≤ high))
  Res.require (decide (0 < binsIn))
  Res.require (!(grow && scal))
  pure (reset r ⟨scal, grow, 2 * ((binsIn + 1) / 2), low, high, 0, [], 0, Stats.reset⟩)

/-- `(unsigned)(floor((value-bin_low)/bin_width))`, `StatsHistogram.cpp:97`, `116`, `135`. -/
def cell (r : Rat → Rat) (width diff : Rat) : Res Nat := if width = 0 then .ub else Clock.toU32 ⌊r (diff / width)⌋

/-- `sampleBin`, `StatsHistogram.cpp:90-100`. -/
def sampleBin (r : Rat → Rat) (h : H) (v : Rat) : Res Nat :=
  if v ≤ h.low then .ok 0
  else if h.high ≤ v then .ok (h.n - 1)
  else cell r h.width (r (v - h.low))

/-- The new number of bins, `StatsHistogram.cpp:115-118` and `134-137`, in 32-bit arithmetic; the factors 2 and 1/2 cancel. -/
def grown (n f : Nat) : Nat :=
  let m := (2 * ((f + 1) % 2 ^ 32)) % 2 ^ 32 / 2
  if m < n * 2 % 2 ^ 32 then n * 2 % 2 ^ 32 else m

/-- Growing at the upper end, `StatsHistogram.cpp:109-128`. `memcpy` of more than the new array is undefined. -/
def growUp (r : Rat → Rat) (h : H) (v : Rat) : Res H := do
  let f ← cell r h.width (r (v - h.low))
  let m := grown h.n f
  if h.n ≤ m then pure { h with bins := h.bins ++ List.replicate (m - h.n) 0, n := m, high := r (h.low + r (r m * h.width)) }
  else .ub

/-- Growing at the lower end, `StatsHistogram.cpp:129-149`. -/
def growDown (r : Rat → Rat) (h : H) (v : Rat) : Res H := do
  let f ← cell r h.width (r (h.high - v))
  let m := grown h.n f
  if h.n ≤ m then pure { h with bins := List.replicate (m - h.n) 0 ++ h.bins, n := m, low := r (h.high - r (r m * h.width)) }
  else .ub

section
variable {α : Type} (plus : α → α → α) (zero : α)

/-- The loop of `StatsHistogram.cpp:158-163`, with `m` rounds left: `j` is `2 * (m - 1)` and `i` is `half + m - 1`. -/
def pairDown (half : Nat) : Nat → List α → Res (List α)
  | 0, b => .ok b
  | m + 1, b => do
    let x ← PQ.rd b (2 * m)
    let y ← PQ.rd b (2 * m + 1)
    let b ← PQ.wr b (half + m) (plus x y)
    pairDown half m b

/-- The loop of `StatsHistogram.cpp:164`, with `m` rounds left. -/
def zeroDown : Nat → List α → Res (List α)
  | 0, b => .ok b
  | m + 1, b => do
    let b ← PQ.wr b m zero
    zeroDown m b

/-- The loop of `StatsHistogram.cpp:170-172`, from `i`, with `m` rounds left. -/
def pairUp : Nat → Nat → List α → Res (List α)
  | _, 0, b => .ok b
  | i, m + 1, b => do
    let x ← PQ.rd b (2 * i)
    let y ← PQ.rd b (2 * i + 1)
    let b ← PQ.wr b i (plus x y)
    pairUp (i + 1) m b

/-- The loop of `StatsHistogram.cpp:173`, from `i`, with `m` rounds left. -/
def zeroUp : Nat → Nat → List α → Res (List α)
  | _, 0, b => .ok b
  | i, m + 1, b => do
    let b ← PQ.wr b i zero
    zeroUp (i + 1) m b

/-- The bins after adding room at the lower end, `StatsHistogram.cpp:158-164`. -/
def halveDown (n : Nat) (b : List α) : Res (List α) := do
  let b ← pairDown plus (n / 2) (n / 2) b
  zeroDown zero (n / 2) b

/-- The bins after adding room at the upper end, `StatsHistogram.cpp:170-173`. -/
def halveUp (n : Nat) (b : List α) : Res (List α) := do
  let b ← pairUp plus 0 (n / 2) b
  zeroUp zero (n / 2) (n - n / 2) b
end

/-- The loop of `StatsHistogram.cpp:155-166`; `.ub` when it takes more rounds than given. -/
def scaleDown (r : Rat → Rat) (v : Rat) : Nat → H → Res H
  | 0, h => if v < h.low then .ub else .ok h
  | m + 1, h =>
    if v < h.low then do
      let b ← halveDown (· + ·) 0 h.n h.bins
      scaleDown r v m { h with low := r (h.low - r (h.high - h.low)), bins := b, width := r (h.width + h.width) }
    else .ok h

/-- The loop of `StatsHistogram.cpp:167-175`; `.ub` when it takes more rounds than given. -/
def scaleUp (r : Rat → Rat) (v : Rat) : Nat → H → Res H
  | 0, h => if h.high ≤ v then .ub else .ok h
  | m + 1, h =>
    if h.high ≤ v then do
      let b ← halveUp (· + ·) 0 h.n h.bins
      scaleUp r v m { h with high := r (h.high + r (h.high - h.low)), bins := b, width := r (h.width + h.width) }
    else .ok h

/-- More rounds than the loops take (`scale_rounds`), if they end at all. Used in the model of `StatsHistogram.cpp:152-176` (`addScale`). -/
def rounds (h : H) (v : Rat) : Nat := ⌈(|v - h.low| + |v - h.high|) / (h.high - h.low)⌉.toNat + 1

/-- The growing part of `add`, `StatsHistogram.cpp:106-151`. -/
def addGrow (r : Rat → Rat) (h : H) (v : Rat) : Res H :=
  if h.grow = true ∧ (v < h.low ∨ h.high ≤ v) then
    if h.high ≤ v then growUp r { h with rescales := h.rescales + 1 } v else growDown r { h with rescales := h.rescales + 1 } v
  else .ok h

/-- The scaling part of `add`, `StatsHistogram.cpp:152-176`. -/
def addScale (r : Rat → Rat) (h : H) (v : Rat) : Res H :=
  if h.scal = true ∧ (v < h.low ∨ h.high ≤ v) then do
    let h' ← scaleDown r v (rounds h v) { h with rescales := h.rescales + 1 }
    scaleUp r v (rounds h v) h'
  else .ok h

/-- `add(double)`, `StatsHistogram.cpp:102-180`. -/
def add (r : Rat → Rat) (h : H) (v : Rat) : Res H := do
  let h ← addGrow r { h with st := Stats.add r h.st v } v
  let h ← addScale r h v
  let i ← sampleBin r h v
  let x ← PQ.rd h.bins i
  let b ← PQ.wr h.bins i (x + 1)
  pure { h with bins := b }

/-- A call on a histogram. Not a function of the code; stands for the uses of `StatsHistogram.cpp:74-180`. -/
inductive Op where
  | add (v : Rat)
  | reset

/-- Not a function of the code; stands for the uses of `StatsHistogram.cpp:74-180`. -/
def step (r : Rat → Rat) (h : H) : Op → Res H
  | .add v => add r h v
  | .reset => .ok (reset r h)

/-- Not a function of the code; stands for the uses of `StatsHistogram.hpp:102-111`. -/
def run (r : Rat → Rat) : H → List Op → Res H
  | h, [] => .ok h
  | h, o :: os => do
    let h ← step r h o
    run r h os

/-! ## Percentiles -/

/-- `Double::eq`, `Double.hpp:54-62`. -/
def eq (r : Rat → Rat) (eps a b : Rat) : Bool :=
  if min |a| |b| = 0 then decide (|r (a - b)| < eps) else decide (r (|r (a - b)| / min |a| |b|) < eps)

/-- `Double::lt`, `Double.hpp:69-71`. -/
def lt (r : Rat → Rat) (eps a b : Rat) : Bool := decide (a < b) && !eq r eps a b

/-- `Double::gt`, `Double.hpp:75-77`. -/
def gt (r : Rat → Rat) (eps a b : Rat) : Bool := decide (b < a) && !eq r eps a b

/-- `Double::leq`, `Double.hpp:66-68`. -/
def leq (r : Rat → Rat) (eps a b : Rat) : Bool := decide (a < b) || eq r eps a b

/-- `Double::geq`, `Double.hpp:72-74`. -/
def geq (r : Rat → Rat) (eps a b : Rat) : Bool := decide (b < a) || eq r eps a b

/-- The loop of `StatsHistogram.cpp:210-213`: the bins after the current one, `lowend`, `highend` and `bin`. -/
def percLoop (r : Rat → Rat) (eps target : Rat) : List Nat → Nat → Nat → Nat → Res (Nat × Nat × Nat)
  | rest, lowend, highend, bin =>
    if gt r eps target (r highend) then
      match rest with
      | [] => .ub
      | b :: rest => percLoop r eps target rest highend (highend + b) (bin + 1)
    else .ok (lowend, highend, bin)

/-- `percentile`, `StatsHistogram.cpp:202-225`; `eps` is `Double::default_epsilon`. -/
def percentile (r : Rat → Rat) (eps : Rat) (h : H) (p : Rat) : Res Rat := do
  Res.require (decide (0 ≤ p ∧ p ≤ 1))
  let target := r (p * r h.st.number)
  let b ← PQ.rd h.bins 0
  let x ← percLoop r eps target (h.bins.drop 1) 0 b 0
  if x.2.1 = x.1 then do
    Res.require (decide (x.2.2 = 0))
    pure 0
  else pure (r (h.low + r (h.width * r (r x.2.2 + r (r (target - r x.1) / r ((x.2.1 - x.1 : Nat) : Rat))))))

/-- `mode`, `StatsHistogram.cpp:188-199`: the last of the fullest bins. -/
def modeBin : List Nat → Nat → Nat → Nat → Nat
  | [], _, _, pos => pos
  | b :: bs, i, m, pos => if m ≤ b then modeBin bs (i + 1) b i else modeBin bs (i + 1) m pos

end Verif.Histo
