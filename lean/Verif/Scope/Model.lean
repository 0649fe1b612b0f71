/-!
# Locks that belong to a block

Model of `SimpleMutex` and `SimpleScopedLock` (`include/Lintel/SimpleMutex.hpp:23-52`, `src/SimpleMutex.cpp:15-36`) and of `PThreadScopedLock` and `PThreadScopedUnlock` (`include/Lintel/PThread.hpp.in:221-291`) without an ordering group.

A program is a statement; what it may do is a relation between statements and lists of events, so branches, loops, and whether a function throws are free. Threads are interleaved in any way that the mutexes allow, one event at a time; `pthread_mutex_lock` of a mutex that is taken waits, also if it is the thread's own (the default kind of mutex), and `pthread_mutex_unlock` of one that is not the thread's own is undefined. Mutexes are created before and destroyed after (`SimpleMutex.cpp:16-25`). Counters of contention (C109) and memory order are not modelled.
-/

namespace Verif.Scope

/-- What a thread does: lines 27-36 of `SimpleMutex.cpp`, and a variable `x` that is read and then written with one more, through a register of the thread. -/
inductive Ev where
  | lock (m : Nat)
  | unlock (m : Nat)
  | read (x : Nat)
  | store (x : Nat)
deriving DecidableEq, Repr

/-- C++ as far as it matters for blocks; the blocks are those of `SimpleMutex.hpp:42-52` and `PThread.hpp.in:221-291`. -/
inductive Stmt where
  | skip
  | throw
  /-- `v = x; x = v + 1`, where computing `v + 1` may throw -/
  | bump (x : Nat)
  | seq (a b : Stmt)
  | either (a b : Stmt)
  | loop (a : Stmt)
  /-- `try { a } catch (...) { b }` -/
  | attempt (a b : Stmt)
  /-- `{ SimpleScopedLock l(m); a }` -/
  | under (m : Nat) (a : Stmt)
  /-- `{ PThreadScopedUnlock u(l); a }` -/
  | release (m : Nat) (a : Stmt)
  /-- `m.lock()` and `m.unlock()` by hand, as in `LintelLog.cpp:201-220` -/
  | lock (m : Nat)
  | unlock (m : Nat)

/-- What a statement may do to its end, and whether it ends without an exception. The destructors (`SimpleMutex.hpp:47-49`, `PThread.hpp.in:281-288`) run either way. -/
inductive Run : Stmt → List Ev → Bool → Prop where
  | skip : Run .skip [] true
  | throw : Run .throw [] false
  | bump (x : Nat) : Run (.bump x) [.read x, .store x] true
  | bumpThrow (x : Nat) : Run (.bump x) [.read x] false
  | seq {a b tr tr' o} : Run a tr true → Run b tr' o → Run (.seq a b) (tr ++ tr') o
  | seqThrow {a b tr} : Run a tr false → Run (.seq a b) tr false
  | left {a b tr o} : Run a tr o → Run (.either a b) tr o
  | right {a b tr o} : Run b tr o → Run (.either a b) tr o
  | loopEnd {a} : Run (.loop a) [] true
  | loopMore {a tr tr' o} : Run a tr true → Run (.loop a) tr' o → Run (.loop a) (tr ++ tr') o
  | loopThrow {a tr} : Run a tr false → Run (.loop a) tr false
  | noThrow {a b tr} : Run a tr true → Run (.attempt a b) tr true
  | caught {a b tr tr' o} : Run a tr false → Run b tr' o → Run (.attempt a b) (tr ++ tr') o
  | under {m a tr o} : Run a tr o → Run (.under m a) (.lock m :: (tr ++ [.unlock m])) o
  | release {m a tr o} : Run a tr o → Run (.release m a) (.unlock m :: (tr ++ [.lock m])) o
  | lock {m} : Run (.lock m) [.lock m] true
  | unlock {m} : Run (.unlock m) [.unlock m] true

/-- `LintelLog::log`, `LintelLog.cpp:201-220`, with mutex 0 and an appender that may throw. -/
def logCall : Stmt := .seq (.lock 0) (.seq (.either .skip .throw) (.unlock 0))

/-! ## Threads -/

/-- The mutexes (`pthread_mutex_t` of `SimpleMutex.hpp:35`), the variables, and the registers of the threads. -/
structure St where
  owner : Nat → Option Nat
  mem : Nat → Nat
  reg : Nat → Nat → Nat

/-- Before `SimpleMutex.cpp:15-18` has given any mutex away. -/
def St.start : St := ⟨fun _ => none, fun _ => 0, fun _ _ => 0⟩

/-- What comes of a step of `SimpleMutex.cpp:27-36`. -/
inductive Out where
  | at (s : St)
  | waits
  | ub

/-- Used for the fields of `St` (`SimpleMutex.hpp:35`). -/
def upd {α : Type} (f : Nat → α) (i : Nat) (v : α) : Nat → α := fun j => if j = i then v else f j

/-- One step of thread `t`: `SimpleMutex.cpp:27-36`. -/
def step (s : St) (t : Nat) : Ev → Out
  | .lock m => if s.owner m = none then .at { s with owner := upd s.owner m (some t) } else .waits
  | .unlock m => if s.owner m = some t then .at { s with owner := upd s.owner m none } else .ub
  | .read x => .at { s with reg := upd s.reg t (upd (s.reg t) x (s.mem x)) }
  | .store x => .at { s with mem := upd s.mem x (s.reg t x + 1) }

/-- Steps of threads one after the other; stands for all uses of `SimpleMutex.cpp:27-36`. -/
def exec (s : St) : List (Nat × Ev) → Out
  | [] => .at s
  | (t, e) :: l =>
    match step s t e with
    | .at s' => exec s' l
    | .waits => .waits
    | .ub => .ub

end Verif.Scope
