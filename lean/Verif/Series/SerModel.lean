import Verif.Stats.Model
import Verif.PQ.Model

/-!
# Series of values with their autocovariance

`StatsSeries` of `/repo/src/StatsSeries.cpp` and `/repo/include/Lintel/StatsSeries.hpp`. `r` rounds to a double after every operation; with `r = id` the arithmetic is
exact. `unsigned` has 32 bits. `new` is taken to succeed. `iscorrelated95` is modelled over the reals in `SerProps.lean`. That the destructor uses `delete` for arrays
(lines 67-71) is not modelled.
-/

namespace Verif.Series

open Verif

/-- The fields, `StatsSeries.hpp:25-29`, with the inherited statistic. -/
structure Ser where
  maxLag : Nat
  samples : List Rat
  product : List Rat
  first : List Rat
  no : Nat
  st : Stats.St
deriving Repr, DecidableEq

/-- One of the three assignments of the loop `StatsSeries.cpp:117-121`, for all of its rounds. -/
def zeros : Nat → Nat → List Rat → Res (List Rat)
  | _, 0, l => .ok l
  | i, k + 1, l => do
    let l ← PQ.wr l i 0
    zeros (i + 1) k l

/-- `reset`, `StatsSeries.cpp:113-123`. The loop is split in three, one for each array. If `max_lag` is the largest `unsigned`, the loop has no end; taking it to have `2^32`
rounds is enough to see that it leaves the arrays. -/
def resetSer (s : Ser) : Res Ser := do
  let a ← zeros 0 (s.maxLag + 1) s.samples
  let b ← zeros 0 (s.maxLag + 1) s.product
  let c ← zeros 0 (s.maxLag + 1) s.first
  pure { s with samples := a, product := b, first := c, no := 0, st := Stats.reset }

/-- The constructor, `StatsSeries.cpp:49-63`; the arrays have any contents `x` at first. -/
def newSer (x : Rat) (maxLag : Nat) : Res Ser := do
  Res.require (decide (0 < maxLag))
  let a := List.replicate ((maxLag + 1) % 2 ^ 32) x
  resetSer ⟨maxLag, a, a, a, 0, Stats.reset⟩

/-- The loop `StatsSeries.cpp:83-85`. -/
def shift : Nat → List Rat → Res (List Rat)
  | 0, l => .ok l
  | i + 1, l => do
    let x ← PQ.rd l i
    let l ← PQ.wr l (i + 1) x
    shift i l

/-- The loops `StatsSeries.cpp:91-93` and `98-100`, from `lag` on with `k` rounds to go. -/
def products (r : Rat → Rat) (v : Rat) (samples : List Rat) : Nat → Nat → List Rat → Res (List Rat)
  | _, 0, l => .ok l
  | lag, k + 1, l => do
    let x ← PQ.rd samples lag
    let p ← PQ.rd l lag
    let l ← PQ.wr l lag (r (p + r (v * x)))
    products r v samples (lag + 1) k l

/-- The loop `StatsSeries.cpp:94-96`, from `lag` on with `k` rounds to go. -/
def firsts (r : Rat → Rat) (v : Rat) : Nat → Nat → List Rat → Res (List Rat)
  | _, 0, l => .ok l
  | lag, k + 1, l => do
    let p ← PQ.rd l lag
    let l ← PQ.wr l lag (r (p + v))
    firsts r v (lag + 1) k l

/-- `add`, `StatsSeries.cpp:76-105`. -/
def addSer (r : Rat → Rat) (s : Ser) (v : Rat) : Res Ser := do
  let a ← shift s.maxLag s.samples
  let a ← PQ.wr a 0 v
  if s.no < s.maxLag then do
    let p ← products r v a 0 (s.no + 1) s.product
    let f ← firsts r v (s.no + 1) (s.maxLag - s.no) s.first
    pure { s with samples := a, product := p, first := f, no := (s.no + 1) % 2 ^ 32, st := Stats.add r s.st v }
  else do
    let p ← products r v a 0 (s.maxLag + 1) s.product
    pure { s with samples := a, product := p, no := (s.no + 1) % 2 ^ 32, st := Stats.add r s.st v }

/-- The loop `StatsSeries.cpp:132-134`, from `i` on with `k` rounds to go. -/
def lasts (r : Rat → Rat) (samples : List Rat) : Nat → Nat → Rat → Res Rat
  | _, 0, x => .ok x
  | i, k + 1, x => do
    let y ← PQ.rd samples i
    lasts r samples (i + 1) k (r (x + y))

/-- `autocovariance`, `StatsSeries.cpp:125-137`. `sampleno - lag - 1` is `unsigned`. `none` is the NaN that `0/0` gives. -/
def autocovariance (r : Rat → Rat) (s : Ser) (lag : Nat) : Res (Option Rat) := do
  Res.require (decide (lag ≤ s.maxLag))
  let last ← lasts r s.samples 0 lag 0
  let p ← PQ.rd s.product lag
  let f ← PQ.rd s.first lag
  let m := Stats.mean r s.st
  let k : Nat := (s.no + 2 ^ 32 + 2 ^ 32 - lag - 1) % 2 ^ 32
  if s.no = 0 then pure none
  else pure (some (r (r (r (r (p - r (m * r (r (r (s.st.sum + s.st.sum) - last) - f))) + r (r (m * m) * r k)) / r (r s.no)) + r (r (m * m) / r s.no))))

/-- Used in the model of `StatsSeries.cpp:76-123` (`runSer`). -/
inductive SerOp where
  | add (v : Rat)
  | reset
deriving Repr, DecidableEq

/-- Made of the parts of `StatsSeries.cpp:76-123`. -/
def runSer (r : Rat → Rat) (s : Ser) : List SerOp → Res Ser
  | [] => .ok s
  | .add v :: ops => do
    let s ← addSer r s v
    runSer r s ops
  | .reset :: ops => do
    let s ← resetSer s
    runSer r s ops

end Verif.Series
