import Verif.Res

/-!
# Model of the replacement `pthread_mutex_timedlock` (`/repo/src/PThread.cpp:303-338`) and of `timedLock` (`/repo/include/Lintel/PThread.hpp.in:155-163`)

The system is a list of rounds: what `pthread_mutex_trylock` returned and what the clock then read. A list that is used up is a call that is still
waiting. `time_t` and `long` have 64 bits and the differences that occur fit, because the nanoseconds are normalised. The clock call does not fail
(line 310 aborts when it does).
-/

namespace Verif.Thread

/-- `struct timespec`. Used in the model of `PThread.cpp:311-312` (`expired`). -/
structure Time where
  sec : Int
  nsec : Int
deriving DecidableEq, Repr

/-- `EBUSY`. Used in the model of `PThread.cpp:304-326` (`timedlock`). -/
def ebusy : Nat := 16

/-- `ETIMEDOUT`. Used in the model of `PThread.cpp:304-326` (`timedlock`). -/
def etimedout : Nat := 110

/-- One turn of the loop: the answer of `pthread_mutex_trylock` and the clock. Used in the model of `PThread.cpp:304-326` (`timedlock`). -/
structure Round where
  ret : Nat
  now : Time
deriving DecidableEq, Repr

/-- Lines 311-312. -/
def expired (now abs : Time) : Bool := decide (abs.sec < now.sec) || (decide (now.sec = abs.sec) && decide (abs.nsec ≤ now.nsec))

/-- Lines 315-318: what is left of the second. -/
def fraction (now abs : Time) : Int := if abs.nsec - now.nsec < 0 then abs.nsec - now.nsec + 1000000000 else abs.nsec - now.nsec

/-- Lines 315-322: the nanoseconds to sleep. -/
def sleepFor (now abs : Time) : Int := if 10000000 < fraction now abs then 10000000 else fraction now abs

/-- `pthread_mutex_timedlock`, lines 304-326: what it returns (`none`: still waiting) and the times slept, in order. -/
def timedlock (abs : Time) : List Round → Option Nat × List Int
  | [] => (none, [])
  | r :: rs =>
    if r.ret = ebusy then
      if expired r.now abs then (some etimedout, [])
      else
        let x := timedlock abs rs
        (x.1, sleepFor r.now abs :: x.2)
    else (some r.ret, [])

/-- `timedLock`, `PThread.hpp.in:155-163`: the answer to the caller. -/
def timedLock (abs : Time) (rs : List Round) : Option (Res Bool) :=
  match (timedlock abs rs).1 with
  | none => none
  | some ret => some (if ret = 0 then .ok true else if ret = etimedout then .ok false else .abort)

/-- The replacement `clock_gettime`, lines 330-337, from the seconds and microseconds of `gettimeofday`. -/
def clockGettime (sec usec : Int) : Time := ⟨sec, usec * 1000⟩

end Verif.Thread
