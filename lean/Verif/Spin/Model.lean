import Verif.Res

/-!
# Model of the spin locks (`/repo/include/Lintel/Lock.hpp`)

`GlibcPosixSpinLock` (lines 50-87), `AtomicSpinLock` (89-121) and `SpinLockYield` (123-177). Each instruction that
touches the lock word is one indivisible step; any number of threads take steps in any order. A thread outside calls
`rdlock()`/`wrlock()` (the same function), a thread inside calls `unlock()`; when it does so is up to the schedule.
The ordering of other memory accesses and the pauses are not modelled.
-/

namespace Verif.Spin

/-- Used in the model of `Lock.hpp:70` (`entry`). -/
inductive Kind | glibc | atomic | yield
deriving DecidableEq

/-- Where a thread is. `test0`: the first `cmpl` of `SpinLockYield`; `dec n`: before the decrement; `spin n`: before
the `cmpl` of the waiting loop; `n` is `spincount` (`SpinLockYield` only). `crit`: between `lock` and `unlock`. Used in the model of `Lock.hpp:70` (`entry`). -/
inductive PC | idle | test0 | dec (n : Nat) | spin (n : Nat) | crit
deriving DecidableEq

/-- `tries` counts the decrements since the lock word was last set to one; no step depends on it. Not a function of the code; stands for the uses of `Lock.hpp:83-83`. -/
structure State where
  val : BitVec 32
  pc : Nat → PC
  tries : Nat

/-- Used in the model of `AtomicCounter.hpp:297` (`step`). -/
def State.goto (s : State) (t : Nat) (p : PC) : State := { s with pc := fun u => if u = t then p else s.pc u }

/-- The constructors set the word to one (lines 83, 117, 173). -/
def initial : State := ⟨1, fun _ => .idle, 0⟩

/-- Where `lock()` starts: `lock decl` (line 70), `--rwl` (line 100), `cmpl $1` (line 142). -/
def entry : Kind → PC
  | .glibc => .dec 0
  | .atomic => .dec 0
  | .yield => .test0

/-- After a decrement that did not give zero: lines 71-74, 100, 146-149. -/
def afterFail : Kind → Nat → PC
  | .glibc, _ => .spin 0
  | .atomic, _ => .dec 0
  | .yield, n => .spin n

/-- After a decrement that gave zero. `SpinLockYield` leaves its loop only when `spincount` is not zero (line 163). -/
def afterZero : Kind → Nat → PC
  | .yield, 0 => .test0
  | _, _ => .crit

/-- The waiting loop: lines 74-77 (`jg`, signed) and 148-155 (`je`, then count down; at zero the asm ends and the
outer loop starts again after yielding). `AtomicSpinLock` has none. -/
def waitStep (k : Kind) (v : BitVec 32) (n : Nat) : PC :=
  match k with
  | .glibc => if 0 < v.toInt then .dec 0 else .spin 0
  | .atomic => .dec 0
  | .yield => if v = 1 then .dec n else if n = 1 then .test0 else .spin (n - 1)

/-- One step of thread `t`. With `ovf`, the subtraction in `--rwl` of `AtomicSpinLock` (`AtomicCounter.hpp:297`) is
undefined at the smallest value, as C++ says; without, it wraps. -/
def step (k : Kind) (ovf : Bool) (s : State) (t : Nat) : Res State :=
  match s.pc t with
  | .idle => .ok (s.goto t (entry k))
  | .crit => .ok { s.goto t .idle with val := 1, tries := 0 }
  | .test0 => .ok (s.goto t (if s.val = 1 then .dec 4 else .spin 4))
  | .spin n => .ok (s.goto t (waitStep k s.val n))
  | .dec n =>
    if k = .atomic ∧ ovf = true ∧ s.val = BitVec.intMin 32 then .ub
    else .ok { s.goto t (if s.val - 1 = 0 then afterZero k n else afterFail k n) with
               val := s.val - 1, tries := s.tries + 1 }

/-- Not a function of the code; stands for the uses of `AtomicCounter.hpp:297-297`. -/
def run (k : Kind) (ovf : Bool) : State → List Nat → Res State
  | s, [] => .ok s
  | s, t :: ts => do
    let s ← step k ovf s t
    run k ovf s ts

end Verif.Spin
