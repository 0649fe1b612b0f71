import Verif.Res

/-! # Clock::perThread

Model of src/ClockPThread.cpp. Keys of `pthread_key_create` are numbers in order; those of other parts of the program are made and used in between. `perThreadInit` holds its mutex, so that it is done once, but `perThread` does not take it: its three effects are three steps. `pthread_key_create` and `pthread_setspecific` are taken to succeed. -/

namespace Verif.Clock.PerThread

/-- What is stored for a thread under a key: a clock, or something of somebody else. Used in the model of `ClockPThread.cpp:29-38` (`perThread`). -/
inductive Obj where
  | clock (n : Nat)
  | other (n : Nat)
deriving DecidableEq

/-- `Clock.cpp:392-394`. -/
structure State where
  /-- how far `perThreadInit` is, lines 24-26: `did_per_thread_init`, the key, and the calibration -/
  phase : Nat
  /-- `per_thread_clock`, line 5 -/
  key : Nat
  /-- the keys made so far are those below -/
  nkeys : Nat
  /-- `isCalibrated()`, src/Clock.cpp:392-394 -/
  calibrated : Bool
  /-- `pthread_getspecific` of a thread and a key -/
  vals : Nat → Nat → Option Obj
  /-- the number of clocks made -/
  made : Nat

/-- Not a function of the code; stands for the uses of `Clock.cpp:392-394`. -/
def start : State := ⟨0, 0, 0, false, fun _ _ => none, 0⟩

/-- Not a function of the code; stands for the uses of `ClockPThread.cpp:29-38`. -/
inductive Op where
  /-- `perThreadInit` goes on; once it is done it returns at once, line 18 -/
  | init
  /-- somebody calls `calibrateClock` -/
  | calibrate
  /-- a thread calls `perThread` -/
  | perThread (t : Nat)
  /-- a thread ends; its number may be used again -/
  | exit (t : Nat)
  /-- somebody else makes a key -/
  | makeKey
  /-- somebody else uses a key of theirs -/
  | put (t k n : Nat)
deriving DecidableEq

/-- Used in the model of `ClockPThread.cpp:29-38` (`perThread`). -/
def setVal (vals : Nat → Nat → Option Obj) (t k : Nat) (o : Option Obj) : Nat → Nat → Option Obj := fun s j => if s = t ∧ j = k then o else vals s j

/-- `perThreadInit`, src/ClockPThread.cpp:12-27. -/
def initStep (s : State) : State :=
  match s.phase with
  | 0 => { s with phase := 1 }
  | 1 => { s with phase := 2, key := s.nkeys, nkeys := s.nkeys + 1 }
  | 2 => { s with phase := 3, calibrated := true }
  | _ => s

/-- `perThread`, src/ClockPThread.cpp:29-38. A key that was not made is undefined. -/
def perThread (s : State) (t : Nat) : Res (Obj × State) :=
  if s.key < s.nkeys then
    match s.vals t s.key with
    | some o => .ok (o, s)
    | none =>
      if s.phase ≠ 0 ∧ s.calibrated = true then .ok (.clock s.made, { s with vals := setVal s.vals t s.key (some (.clock s.made)), made := s.made + 1 })
      else .abort
  else .ub

/-- What can be seen. Not a function of the code; stands for the uses of `ClockPThread.cpp:29-38`. -/
inductive Ev where
  /-- `perThread` returned this to the thread -/
  | got (t : Nat) (o : Obj)
  | exit (t : Nat)
deriving DecidableEq

/-- One operation; the newest event is first in the log. Not a function of the code; stands for the uses of `ClockPThread.cpp:12-38`. -/
def step (s : State) (log : List Ev) : Op → Res (State × List Ev)
  | .init => .ok (initStep s, log)
  | .calibrate => .ok ({ s with calibrated := true }, log)
  | .perThread t =>
    match perThread s t with
    | .ok (o, s') => .ok (s', .got t o :: log)
    | .abort => .abort
    | .ub => .ub
  | .exit t => .ok ({ s with vals := fun u k => if u = t then none else s.vals u k }, .exit t :: log)
  | .makeKey => .ok ({ s with nkeys := s.nkeys + 1 }, log)
  | .put t k n => if k < s.nkeys ∧ ¬ (2 ≤ s.phase ∧ k = s.key) then .ok ({ s with vals := setVal s.vals t k (some (.other n)) }, log) else .ok (s, log)

/-- Not a function of the code; stands for the uses of `ClockPThread.cpp:12-38`. -/
def run : State → List Ev → List Op → Res (State × List Ev)
  | s, log, [] => .ok (s, log)
  | s, log, o :: os =>
    match step s log o with
    | .ok (s', log') => run s' log' os
    | .abort => .abort
    | .ub => .ub

end Verif.Clock.PerThread
