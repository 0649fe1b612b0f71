import Verif.Stats.Model

/-!
# Exponential moving averages

`StatsEMA` of `/repo/src/StatsEMA.cpp` and `/repo/include/Lintel/StatsEMA.hpp`. `r` rounds to a double after every operation, with `r = id` the arithmetic is exact. The three
vectors `ema_values`, `decay_rates` and `count_low`, always of the same length, are one list. `countll()` is below `2^53`, so that it converts to a double without rounding;
values are finite.
-/

namespace Verif.Ema

open Verif

/-- An element of the three vectors, `StatsEMA.hpp:53-54`. -/
structure Slot where
  rate : Rat
  value : Rat
  low : Bool
deriving Repr, DecidableEq

/-- The fields with those of the base class. Used in the model of `StatsEMA.cpp:16-26` (`new`). -/
structure E where
  st : Stats.St
  slots : List Slot
deriving Repr, DecidableEq

/-- The constructors, `StatsEMA.cpp:16-26`, and `init`, `StatsEMA.cpp:90-103`. -/
def new (rates : List Rat) : Res E := do
  Res.require (decide (0 < rates.length))
  Res.require (rates.all fun d => decide (0 < d ∧ d < 1))
  pure ⟨Stats.reset, rates.map fun d => ⟨d, 0, true⟩⟩

/-- `updateEMA`, `StatsEMA.hpp:48-52`. -/
def update (r : Rat → Rat) (v : Rat) (s : Slot) : Slot := { s with value := r (r (r (1 - s.rate) * s.value) + r (s.rate * v)) }

/-- The body of the loop of `add`, `StatsEMA.cpp:43-52`; `st` is the base class after `Stats::add`. -/
def addSlot (r : Rat → Rat) (st : Stats.St) (v : Rat) (s : Slot) : Slot :=
  if s.low then
    if r (1 / s.rate) < st.number then update r v { s with low := false } else { s with value := Stats.mean r st }
  else update r v s

/-- `add`, `StatsEMA.cpp:38-54`. -/
def add (r : Rat → Rat) (e : E) (v : Rat) : E :=
  let st := Stats.add r e.st v
  ⟨st, e.slots.map (addSlot r st v)⟩

/-- Made of the parts of `StatsEMA.cpp:38-54`. -/
def adds (r : Rat → Rat) (e : E) (vs : List Rat) : E := vs.foldl (add r) e

/-- `getEMA`, `StatsEMA.cpp:60-67`. -/
def get (e : E) (i : Nat) : Res Rat :=
  match e.slots[i]? with
  | none => .abort
  | some s => .ok s.value

/-- `minEMA`, `StatsEMA.cpp:69-78`. -/
def least (e : E) : Res Rat :=
  match e.slots with
  | [] => .ub
  | s :: l => .ok (l.foldl (fun ret s => if s.value < ret then s.value else ret) s.value)

/-- `maxEMA`, `StatsEMA.cpp:80-88`. -/
def greatest (e : E) : Res Rat :=
  match e.slots with
  | [] => .ub
  | s :: l => .ok (l.foldl (fun ret s => if ret < s.value then s.value else ret) s.value)

/-- `reset`, `StatsEMA.cpp:32-36`. -/
def reset (_ : E) : Res E := .abort

end Verif.Ema
