import Verif.Stats.Model
import Verif.PQ.Model

/-!
# Sequences of values that are merged when they get too many

`StatsSequence` of `/repo/src/StatsSequence.cpp` and `/repo/include/Lintel/StatsSequence.hpp`. `r` rounds to a double after every operation; with `r = id` the arithmetic
is exact. The width of an interval is only printed and left out, and so is printing.
-/

namespace Verif.Series

open Verif

/-- `enum mode`, `StatsSequence.hpp:22`. -/
inductive Mode where
  | sum
  | mean
  | max
deriving Repr, DecidableEq

/-- The fields, `StatsSequence.hpp:37-42`, with the inherited statistic. -/
structure Q where
  limit : Nat
  mode : Mode
  values : List Rat
  part : Rat
  per : Nat
  remain : Int
  st : Stats.St
deriving Repr, DecidableEq

/-- `reset`, `StatsSequence.cpp:31-39`. -/
def resetQ (s : Q) : Q := { s with st := Stats.reset, values := [], part := 0, per := 1, remain := 1 }

/-- The constructor, `StatsSequence.cpp:16-25`. -/
def newQ (limit : Nat) (mode : Mode) : Res Q := do
  Res.require (decide (0 < limit))
  Res.require (decide (limit % 2 = 0))
  pure (resetQ ⟨limit, mode, [], 0, 1, 1, Stats.reset⟩)

/-- The merge of two values, `StatsSequence.cpp:50-60`. -/
def join (r : Rat → Rat) : Mode → Rat → Rat → Rat
  | .sum, x, y => r (x + y)
  | .mean, x, y => r (r (x + y) / 2)
  | .max, x, y => if y < x then x else y

/-- The loop that merges pairs in place, `StatsSequence.cpp:48-61`, from `i` on with `k` rounds to go. -/
def joinAll (r : Rat → Rat) (m : Mode) : Nat → Nat → List Rat → Res (List Rat)
  | _, 0, l => .ok l
  | i, k + 1, l => do
    let x ← PQ.rd l (2 * i)
    let y ← PQ.rd l (2 * i + 1)
    let l ← PQ.wr l i (join r m x y)
    joinAll r m (i + 1) k l

/-- The first part of `add`, `StatsSequence.cpp:45-65`. `points_per_bucket` is an `int`. -/
def shrink (r : Rat → Rat) (s : Q) : Res Q :=
  if s.values.length = s.limit then do
    Res.require (decide (s.remain = s.per ∧ s.part = 0))
    let l ← joinAll r s.mode 0 (s.limit / 2) s.values
    if 2 ^ 31 ≤ 2 * s.per then .ub
    else pure { s with values := l.take (s.limit / 2), per := 2 * s.per, remain := ((2 * s.per : Nat) : Int) }
  else .ok s

/-- How a point is added to the bucket, `StatsSequence.cpp:66-70`. -/
def into (r : Rat → Rat) : Mode → Rat → Rat → Rat
  | .max, p, v => if v < p then p else v
  | _, p, v => r (p + v)

/-- What becomes of a full bucket, `StatsSequence.cpp:73-83`. -/
def close (r : Rat → Rat) : Mode → Nat → Rat → Rat
  | .mean, n, p => r (p / n)
  | _, _, p => p

/-- `add`, `StatsSequence.cpp:41-89`. -/
def addQ (r : Rat → Rat) (s : Q) (v : Rat) : Res Q := do
  let s ← shrink r { s with st := Stats.add r s.st v }
  let p := into r s.mode s.part v
  if s.remain - 1 = 0 then do
    Res.require (decide (s.values.length + 1 ≤ s.limit))
    pure { s with values := s.values ++ [close r s.mode s.per p], part := 0, remain := s.per }
  else pure { s with part := p, remain := s.remain - 1 }

/-- `setMergeMode`, `StatsSequence.cpp:144-150`. -/
def setMode (s : Q) (m : Mode) : Res Q := do
  Res.require (decide (s.values.length = 0))
  pure { s with mode := m }

/-- `get`, `StatsSequence.cpp:152-160`. -/
def getQ (s : Q) (i : Nat) : Res Rat := do
  Res.require (decide (i < s.values.length))
  PQ.rd s.values i

/-- Made of the parts of `StatsSequence.hpp:22-22`. -/
inductive QOp where
  | add (v : Rat)
  | reset
  | mode (m : Mode)
deriving Repr, DecidableEq

/-- Made of the parts of `StatsSequence.cpp:31-150`. -/
def stepQ (r : Rat → Rat) (s : Q) : QOp → Res Q
  | .add v => addQ r s v
  | .reset => .ok (resetQ s)
  | .mode m => setMode s m

/-- Made of the parts of `StatsSequence.hpp:37-42`. -/
def runQ (r : Rat → Rat) (s : Q) : List QOp → Res Q
  | [] => .ok s
  | o :: ops => do
    let s ← stepQ r s o
    runQ r s ops

end Verif.Series
