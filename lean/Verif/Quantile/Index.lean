import Verif.Quantile.Model

/-!
# getQuantileByIndex (src/StatsQuantile.cpp:395-443)

The older way to find the value with a given index: the sorted buffers are merged through a priority queue until the weights taken exceed the index.  `getQuantile` now uses the binary search instead (line 374), and can be switched back; the regression test compares the two on samples.  Neither sorts the buffers: `getQuantile` has done so before.  Debug checks are left out; `cur_index` is an integer (fewer than 2^64 values).
-/

namespace Verif.Quantile

open Verif

variable {V : Type} [LinearOrder V] (c : Consts V)

/-- The current buffer's entry in the queue (lines 406-409). -/
def pushCurrent (s : Sk V) (cur : Nat) (q : PQ.Q (V × Nat)) : Res (PQ.Q (V × Nat)) :=
  if s.pos > 0 then do
    let v ← cell s.slots cur 0
    PQ.push pairCmp (c.zero, 0) q (v, cur)
  else pure q

/-- The queue after one value of buffer `b` was taken (lines 435-440): `p` is `collapse_pos[b]` after the increment. -/
def advance (slots : List (Slot V)) (k cur pos b p : Nat) (q : PQ.Q (V × Nat)) : Res (PQ.Q (V × Nat)) :=
  if p < (if b < cur then k else pos) then do
    let v ← cell slots b p
    PQ.replaceTop pairCmp q (v, b)
  else PQ.pop pairCmp q

/-- The loop (lines 414-441) and the result when the queue is empty (line 442): `none` is NaN. -/
def indexLoop (slots : List (Slot V)) (k cur pos target : Nat) : Nat → PQ.Q (V × Nat) → List Nat → Int → Res (Option V)
  | 0, _, _, _ => .ub
  | fuel + 1, q, cp, idx =>
    if q.size = 0 then pure none
    else do
      let t ← PQ.top q
      let p ← PQ.rd cp t.2
      let cp ← PQ.wr cp t.2 (p + 1)
      let x ← PQ.rd slots t.2
      if idx + x.weight > (target : Int) then pure (some t.1)
      else do
        let q ← advance slots k cur pos t.2 (p + 1) q
        indexLoop slots k cur pos target fuel q cp (idx + x.weight)

/-- `getQuantileByIndex` (lines 398-443).  In a new lazy sketch `cur_buffer` is -1 and `cur_buffer_pos` positive: `collapse_pos[-1]` is undefined. -/
def byIndex (s : Sk V) (target : Nat) : Res (Option V) :=
  if s.cur1 = 0 then (if s.pos > 0 then .ub else pure none)
  else if s.size < s.cur1 then .ub
  else do
    let q ← fillQueue c s.slots (s.cur1 - 1) 0 (PQ.new (c.zero, 0) s.slots.length)
    let q ← pushCurrent c s (s.cur1 - 1) q
    indexLoop s.slots s.size (s.cur1 - 1) s.pos target ((s.cur1 - 1) * s.size + s.pos + 1) q (List.replicate s.size 0) 0

end Verif.Quantile
