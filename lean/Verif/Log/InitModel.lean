import Verif.Res

/-!
# First use of `LintelLog` from several threads

`LintelLog::maybeInitInstance`, `/repo/src/LintelLog.cpp:268-283`, run by any number of threads. A schedule is a list of threads; each entry is one step of that
thread. The steps that make the object are a list, so that an order other than the one written can be given: a compiler or processor may move memory accesses into a
critical section, but not out of one. Simplified: `tmp->mutex` is never waited for (nobody else has the object yet), constructing is one step, and the function's static mutex
is there from the start.
-/

namespace Verif.Log.Init
open Verif

/-- Lines 275-278. -/
inductive Micro where
  | construct   -- the stores of the constructor
  | lockTmp
  | unlockTmp
  | publish     -- instance = tmp
deriving DecidableEq, Repr

/-- The order in which the steps are written. Made of the parts of `LintelLog.cpp:275-278`. -/
def written : List Micro := [.construct, .lockTmp, .unlockTmp, .publish]

/-- Where a thread is in the function. Made of the parts of `LintelLog.cpp:275-278`. -/
inductive PC where
  | check1                                    -- line 273
  | lock                                      -- 274
  | check2                                    -- 275
  | make (obj : Nat) (rest : List Micro)      -- 276-279
  | unlock                                    -- 281
  | done
deriving DecidableEq, Repr

/-- Not a function of the code; stands for the uses of `LintelLog.cpp:275-278`. -/
structure State where
  pc : Nat → PC := fun _ => .check1
  owner : Option Nat := none           -- of init_mutex
  inst : Option Nat := none            -- the global pointer
  objs : Nat := 0                      -- objects allocated
  built : Nat → Bool := fun _ => false -- which have been constructed

/-- Used in the model of `LintelLog.cpp:275-278` (`step`). -/
def State.goto (s : State) (t : Nat) (p : PC) : State := { s with pc := fun u => if u = t then p else s.pc u }

/-- Made of the parts of `LintelLog.cpp:275-278`. -/
def micro (s : State) (o : Nat) : Micro → State
  | .construct => { s with built := fun p => if p = o then true else s.built p }
  | .lockTmp => s
  | .unlockTmp => s
  | .publish => { s with inst := some o }

/-- One step of thread `t`. Not a function of the code; stands for the uses of `LintelLog.cpp:275-278`. -/
def step (order : List Micro) (s : State) (t : Nat) : State :=
  match s.pc t with
  | .check1 => s.goto t (if s.inst = none then .lock else .done)
  | .lock => if s.owner = none then { s.goto t .check2 with owner := some t } else s
  | .check2 => if s.inst = none then { s.goto t (.make s.objs order) with objs := s.objs + 1 } else s.goto t .unlock
  | .make o (m :: rest) => (micro s o m).goto t (.make o rest)
  | .make _ [] => s.goto t .unlock
  | .unlock => { s.goto t .done with owner := none }
  | .done => s

/-- Not a function of the code; stands for the uses of `LintelLog.cpp:275-278`. -/
def run (order : List Micro) (s : State) (sched : List Nat) : State := sched.foldl (step order) s

end Verif.Log.Init
