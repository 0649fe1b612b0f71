import Verif.Histo.Model

/-!
# Uniform histograms that sum up data, and groups of histograms

`StatsHistogramUniformAccum` and `StatsHistogramGroup` of `/repo/src/StatsHistogram.cpp`. As in `Verif.Histo.Model`, `r` rounds to a double after every operation.
-/

namespace Verif.Histo

open Verif

/-! ## `StatsHistogramUniformAccum` -/

/-- `StatsHistogramUniformAccum`, `StatsHistogram.hpp:225-262`: a histogram with `val_bins`. -/
structure A where
  h : H
  val : List Rat
deriving Repr, DecidableEq

/-- `reset`, `StatsHistogram.cpp:587-591`. -/
def resetA (r : Rat → Rat) (a : A) : Res A := do
  let v ← zeroUp 0 0 a.h.n a.val
  pure ⟨reset r a.h, v⟩

/-- The constructor, `StatsHistogram.cpp:569-580`: the array has `bins_in` elements, which are not initialised before `reset` (0 here). -/
def newA (r : Rat → Rat) (binsIn : Nat) (low high : Rat) (scal grow : Bool) : Res A := do
  let h ← new r binsIn low high scal grow
  resetA r ⟨h, List.replicate binsIn 0⟩

/-- The loop of `StatsHistogram.cpp:600-618`; the two arrays are updated one after the other here. -/
def scaleDownA (r : Rat → Rat) (v : Rat) : Nat → A → Res A
  | 0, a => if v < a.h.low then .ub else .ok a
  | m + 1, a =>
    if v < a.h.low then do
      let b ← halveDown (· + ·) 0 a.h.n a.h.bins
      let c ← halveDown (fun x y => r (x + y)) 0 a.h.n a.val
      scaleDownA r v m ⟨{ a.h with low := r (a.h.low - r (a.h.high - a.h.low)), bins := b, width := r (a.h.width + a.h.width) }, c⟩
    else .ok a

/-- The loop of `StatsHistogram.cpp:619-632`. -/
def scaleUpA (r : Rat → Rat) (v : Rat) : Nat → A → Res A
  | 0, a => if a.h.high ≤ v then .ub else .ok a
  | m + 1, a =>
    if a.h.high ≤ v then do
      let b ← halveUp (· + ·) 0 a.h.n a.h.bins
      let c ← halveUp (fun x y => r (x + y)) 0 a.h.n a.val
      scaleUpA r v m ⟨{ a.h with high := r (a.h.high + r (a.h.high - a.h.low)), bins := b, width := r (a.h.width + a.h.width) }, c⟩
    else .ok a

/-- The scaling part of `add`, `StatsHistogram.cpp:597-633`. -/
def addScaleA (r : Rat → Rat) (a : A) (v : Rat) : Res A :=
  if a.h.scal = true ∧ (v < a.h.low ∨ a.h.high ≤ v) then do
    let a' ← scaleDownA r v (rounds a.h v) { a with h := { a.h with rescales := a.h.rescales + 1 } }
    scaleUpA r v (rounds a.h v) a'
  else .ok a

/-- `add(index_value, data_value)`, `StatsHistogram.cpp:593-638`; `add(value)` is `add(value, value)` (lines 640-642). -/
def addA (r : Rat → Rat) (a : A) (i d : Rat) : Res A := do
  let a ← addScaleA r { a with h := { a.h with st := Stats.add r a.h.st d } } i
  let k ← sampleBin r a.h i
  let x ← PQ.rd a.h.bins k
  let b ← PQ.wr a.h.bins k (x + 1)
  let y ← PQ.rd a.val k
  let c ← PQ.wr a.val k (r (y + d))
  pure ⟨{ a.h with bins := b }, c⟩

/-- A call on a histogram that sums up, or on a group. Used in the model of `StatsHistogram.cpp:182-186` (`stepU`). -/
inductive Op2 where
  | add (i d : Rat)
  | reset

/-- Made of the parts of `StatsHistogram.cpp:587-638`. -/
def stepA (r : Rat → Rat) (a : A) : Op2 → Res A
  | .add i d => addA r a i d
  | .reset => resetA r a

/-- Made of the parts of `StatsHistogram.hpp:225-262`. -/
def runA (r : Rat → Rat) : A → List Op2 → Res A
  | a, [] => .ok a
  | a, o :: os => do
    let a ← stepA r a o
    runA r a os

/-! ## `StatsHistogramGroup` -/

/-- `add(index_value, data_value)` of `StatsHistogramUniform`, `StatsHistogram.cpp:182-186`. -/
def stepU (r : Rat → Rat) (h : H) : Op2 → Res H
  | .add i d => do
    Res.require (decide (i = d))
    add r h i
  | .reset => .ok (reset r h)

/-- The fields of `StatsHistogramGroup`, `StatsHistogram.hpp:340-343`, with the inherited statistic; `α` is the type of the histograms. -/
structure Group (α : Type) where
  ranges : List Rat
  hists : List α
  low : Stats.St
  high : Stats.St
  st : Stats.St

/-- The loop of both constructors, `StatsHistogram.cpp:819-838` and `854-873`: `mk i lo hi` makes histogram `i`. -/
def mkHists {α : Type} (mk : Nat → Rat → Rat → Res α) : Nat → List Rat → Res (List α)
  | i, lo :: hi :: rest => do
    let h ← mk i lo hi
    let hs ← mkHists mk (i + 1) (hi :: rest)
    pure (h :: hs)
  | _, _ => .ok []

/-- The constructors, `StatsHistogram.cpp:811-874`. -/
def newGroup {α : Type} (mk : Nat → Rat → Rat → Res α) (ranges : List Rat) : Res (Group α) := do
  Res.require (decide (2 ≤ ranges.length))
  let hs ← mkHists mk 0 ranges
  pure ⟨ranges, hs, Stats.reset, Stats.reset, Stats.reset⟩

/-- The loop of `add`, `StatsHistogram.cpp:897-902` and `913-918`, from `i` with `m` rounds left; `none` if no histogram takes the value. -/
def route {α : Type} (sub : α → Op2 → Res α) (v d : Rat) (ranges : List Rat) (hs : List α) : Nat → Nat → Res (Option (List α))
  | 0, _ => .ok none
  | m + 1, i => do
    let x ← PQ.rd ranges i
    if v < x then do
      let h ← PQ.rd hs (i - 1)
      let h ← sub h (.add v d)
      let hs ← PQ.wr hs (i - 1) h
      pure (some hs)
    else route sub v d ranges hs m (i + 1)

/-- `reset` of all the histograms, `StatsHistogram.cpp:887-889`. -/
def resetAll {α : Type} (sub : α → Op2 → Res α) : List α → Res (List α)
  | [] => .ok []
  | h :: hs => do
    let h ← sub h .reset
    let hs ← resetAll sub hs
    pure (h :: hs)

/-- `add`, `StatsHistogram.cpp:892-924`, and `reset`, lines 883-890. `add(value)` is like `add(value, value)`, because that is so for all the kinds of histograms. -/
def stepG {α : Type} (r : Rat → Rat) (sub : α → Op2 → Res α) (g : Group α) : Op2 → Res (Group α)
  | .add v d => do
    let x ← PQ.rd g.ranges 0
    if v < x then pure { g with st := Stats.add r g.st d, low := Stats.add r g.low d }
    else do
      let o ← route sub v d g.ranges g.hists (g.ranges.length - 1) 1
      match o with
      | some hs => pure { g with st := Stats.add r g.st d, hists := hs }
      | none => pure { g with st := Stats.add r g.st d, high := Stats.add r g.high d }
  | .reset => do
    let hs ← resetAll sub g.hists
    pure { g with st := Stats.reset, low := Stats.reset, high := Stats.reset, hists := hs }

/-- Made of the parts of `StatsHistogram.hpp:340-343`. -/
def runG {α : Type} (r : Rat → Rat) (sub : α → Op2 → Res α) : Group α → List Op2 → Res (Group α)
  | g, [] => .ok g
  | g, o :: os => do
    let g ← stepG r sub g o
    runG r sub g os

end Verif.Histo
