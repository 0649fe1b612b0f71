import Verif.Res

/-!
# Model of `PThreadMutex` (`/repo/include/Lintel/PThread.hpp.in:116-219`)

Any number of threads lock, try and unlock one mutex; the system's mutex is a place that names its owner. Every step of one thread is one move: the system
calls are indivisible, and the reading and the writing of the contention counter (line 171) are moves of their own. `errorcheck` is the argument of the
constructor. A thread that locks a mutex it already holds is refused by an error-checking mutex (`EDEADLK`) and otherwise waits for ever; unlocking a mutex
that the thread does not hold is refused (`EPERM`) or undefined. Deadlines are in `Verif.Thread.Timed`.
-/

namespace Verif.Thread.Mutex

/-- Where a thread is. Used in the model of `PThread.cpp:219-240` (`St`). -/
inductive PC where
  /-- outside, not holding the mutex -/
  | idle
  /-- in `lock`, before the try of line 166 -/
  | trying
  /-- in `lock`, in `pthread_mutex_lock` of line 169 -/
  | waiting
  /-- in `lock`, after line 169 -/
  | got
  /-- in `lock`, line 171 has read `v` -/
  | read (v : Nat)
  /-- outside, holding the mutex -/
  | holding
  /-- in `lock` although it holds the mutex, before the try -/
  | retrying
  /-- waiting for itself -/
  | stuck
deriving DecidableEq, Repr

/-- Not a function of the code; stands for the uses of `PThread.cpp:219-240`. -/
structure St where
  errorcheck : Bool
  owner : Option Nat
  ncontention : Nat
  pc : Nat → PC

/-- The constructor, `PThread.cpp:219-240`. -/
def init (errorcheck : Bool) : St := ⟨errorcheck, none, 0, fun _ => .idle⟩

/-- What a thread can do next. Not a function of the code; stands for the uses of `PThread.cpp:219-240`. -/
inductive Move where
  | callLock
  | callTrylock
  | callUnlock
  /-- go on inside `lock` -/
  | go
deriving DecidableEq, Repr

/-- What can be seen from outside: a call to `lock` found the mutex taken; a call to `lock` returned; the answers of `trylock`; `unlock` returned. Used in the model of `PThread.cpp:219-240` (`step`). -/
inductive Obs where
  | foundBusy (t : Nat)
  | locked (t : Nat)
  | tried (t : Nat) (b : Bool)
  | unlocked (t : Nat)
deriving DecidableEq, Repr

/-- Made of the parts of `PThread.cpp:219-240`. -/
def setPc (s : St) (t : Nat) (p : PC) : St := { s with pc := fun u => if u = t then p else s.pc u }

/-- One move of thread `t`; a move that makes no sense where the thread is does nothing. Not a function of the code; stands for the uses of `PThread.cpp:219-240`. -/
def step (s : St) (t : Nat) (m : Move) : Res (St × List Obs) :=
  match m, s.pc t with
  -- `lock`, line 165
  | .callLock, .idle => .ok (setPc s t .trying, [])
  | .callLock, .holding => .ok (setPc s t .retrying, [])
  -- `trylock`, lines 145-153
  | .callTrylock, .idle =>
    match s.owner with
    | none => .ok (setPc { s with owner := some t } t .holding, [.tried t true])
    | some _ => .ok (s, [.tried t false])
  | .callTrylock, .holding => .ok (s, [.tried t false])
  -- `unlock`, lines 174-179
  | .callUnlock, .holding => .ok (setPc { s with owner := none } t .idle, [.unlocked t])
  | .callUnlock, .idle => if s.errorcheck then .abort else .ub
  -- lines 166-168
  | .go, .trying =>
    match s.owner with
    | none => .ok (setPc { s with owner := some t } t .holding, [.locked t])
    | some _ => .ok (setPc s t .waiting, [.foundBusy t])
  -- line 169
  | .go, .waiting =>
    match s.owner with
    | none => .ok (setPc { s with owner := some t } t .got, [])
    | some _ => .ok (s, [])
  -- line 171
  | .go, .got => .ok (setPc s t (.read s.ncontention), [])
  | .go, .read v => .ok (setPc { s with ncontention := (v + 1) % 2 ^ 32 } t .holding, [.locked t])
  -- lines 166-170 when the thread holds the mutex
  | .go, .retrying => if s.errorcheck then .abort else .ok (setPc s t .stuck, [.foundBusy t])
  | _, _ => .ok (s, [])

/-- An execution: moves of threads in some order. Not a function of the code; stands for the uses of `PThread.cpp:219-240`. -/
def run : St → List (Nat × Move) → Res (St × List Obs)
  | s, [] => .ok (s, [])
  | s, (t, m) :: ms => do
    let x ← step s t m
    let y ← run x.1 ms
    pure (y.1, x.2 ++ y.2)

end Verif.Thread.Mutex
