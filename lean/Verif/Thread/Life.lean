import Verif.Res

/-!
# Model of `PThread` and `PThreadNoSignals` (`/repo/src/PThread.cpp:129-217`, `285-300`)

One thread object, used by one master thread, as `PThread.hpp.in:52-58` asks for. The system keeps the threads that were created, in order; a thread is
identified by its place (a real `pthread_t` may be used again after a join). Creating an attribute, changing sizes and `kill` are left out.
-/

namespace Verif.Thread.Life

/-- How far a thread has got. `done v`: `run` has returned `v`; `gone`: joined. Used in the model of `PThread.cpp:129-136` (`Thr`). -/
inductive Phase where
  | created
  | running
  | done (v : Nat)
  | gone
deriving DecidableEq, Repr

/-- Used in the model of `PThread.cpp:129-136` (`St`). -/
structure Thr where
  detached : Bool
  phase : Phase
deriving DecidableEq, Repr

/-- The object (`exists` until the destructor), its fields `thread_live`, `last_tid` and the detach state in `attr`, and the system's threads. Not a function of the code; stands for the uses of `PThread.cpp:129-136`. -/
structure St where
  alive : Bool
  live : Bool
  last : Nat
  detached : Bool
  thr : List Thr
deriving DecidableEq, Repr

/-- The constructor, lines 129-136. -/
def init : St := ⟨true, false, 0, false, []⟩

/-- Not a function of the code; stands for the uses of `PThread.cpp:129-136`. -/
inductive Move where
  /-- the master calls `start`; the argument is whether the system can create a thread -/
  | start (possible : Bool)
  /-- the master is in `join` -/
  | join
  | setDetached (b : Bool)
  /-- the destructor -/
  | destroy
  /-- the system lets thread `i` begin: `pthread_starter`, lines 187-190 -/
  | begins (i : Nat)
  /-- `run` returns `v` in thread `i` -/
  | returns (i : Nat) (v : Nat)
deriving DecidableEq, Repr

/-- What is seen: `start` returned; `run` was called by thread `i`; `run` returned; `join` returned `v`. Used in the model of `PThread.cpp:129-136` (`step`). -/
inductive Obs where
  | started (i : Nat)
  | runs (i : Nat)
  | ended (i : Nat) (v : Nat)
  | joined (v : Nat)
deriving DecidableEq, Repr

/-- `pthread_join`: undefined for a detached thread and for one that has been joined; waits (no answer) while the thread is not done. Made of the parts of `PThread.cpp:129-136`. -/
def sysJoin (thr : List Thr) (i : Nat) : Res (Option Nat) :=
  match thr[i]? with
  | none => .ub
  | some t =>
    if t.detached then .ub
    else match t.phase with
      | .done v => .ok (some v)
      | .gone => .ub
      | _ => .ok none

/-- Made of the parts of `PThread.cpp:129-136`. -/
def setPhase (thr : List Thr) (i : Nat) (p : Phase) : List Thr := thr.modify i fun t => { t with phase := p }

/-- Not a function of the code; stands for the uses of `PThread.cpp:129-136`. -/
def step (s : St) : Move → Res (St × List Obs)
  -- lines 192-202
  | .start possible =>
    if !s.alive then .ub else do
    Res.require (!s.live)
    Res.require possible
    pure ({ s with live := true, last := s.thr.length, thr := s.thr ++ [⟨s.detached, .created⟩] }, [.started s.thr.length])
  -- lines 204-211
  | .join =>
    if !s.alive then .ub else do
    Res.require s.live
    let r ← sysJoin s.thr s.last
    match r with
    | none => pure (s, [])
    | some v => pure ({ s with live := false, thr := setPhase s.thr s.last .gone }, [.joined v])
  -- lines 142-147
  | .setDetached b => if !s.alive then .ub else .ok ({ s with detached := b }, [])
  -- lines 138-140
  | .destroy => if !s.alive then .ub else .ok ({ s with alive := false }, [])
  | .begins i =>
    match s.thr[i]? with
    | some ⟨_, .created⟩ => if s.alive then .ok ({ s with thr := setPhase s.thr i .running }, [.runs i]) else .ub
    | _ => .ok (s, [])
  | .returns i v =>
    match s.thr[i]? with
    | some ⟨_, .running⟩ => .ok ({ s with thr := setPhase s.thr i (.done v) }, [.ended i v])
    | _ => .ok (s, [])

/-- Not a function of the code; stands for the uses of `PThread.cpp:129-136`. -/
def run : St → List Move → Res (St × List Obs)
  | s, [] => .ok (s, [])
  | s, m :: ms => do
    let x ← step s m
    let y ← run x.1 ms
    pure (y.1, x.2 ++ y.2)

/-! ## Signals -/

/-- A set of signals. `SIGKILL` (9) and `SIGSTOP` (19) cannot be blocked. Used in the model of `PThread.cpp:285-296` (`startNoSignals`). -/
abbrev Mask := Nat → Bool

/-- What the system makes of a mask it is given. Used in the model of `PThread.cpp:285-296` (`startNoSignals`). -/
def allowed (m : Mask) : Mask := fun s => m s && !(s == 9 || s == 19)

/-- `PThreadNoSignals::start`, lines 285-296: what `start` does, the mask of the calling thread afterwards (also when an assertion in `PThread::start` throws), and
that of the new thread, which inherits the caller's. -/
def startNoSignals (mask : Mask) (live possible : Bool) : Res Unit × Mask × Option Mask :=
  let blocked := allowed fun s => mask s || true
  match (do Res.require (!live); Res.require possible : Res Unit) with
  | .ok () => (.ok (), allowed mask, some blocked)
  | r => (r, blocked, none)

end Verif.Thread.Life
