import Mathlib.Order.Defs.LinearOrder
import Verif.Res

/-!
# Model of ordered scoped locks

`/repo/include/Lintel/LockOrderingGroup.hpp` and `PThreadScopedLock`/`PThreadScopedUnlock` of
`/repo/include/Lintel/PThread.hpp.in` (lines 221-291), for one group. Levels are any linear order with the first level
`zero` (`*cur_level = 0`, `LockOrderingGroup.hpp:38`); in the code they are doubles. A level that is not a number is
refused by `scopeDown` because it compares below nothing, and is left out. Mutexes are not recursive. Each thread is a
list of the scoped objects on its stack, innermost first: destructors run in that order. Exceptions are not modelled.
-/

namespace Verif.LockOrd

variable {L : Type} [LinearOrder L]

/-- A scoped object. `lock`: mutex, its level and `old_level`. `unlock`: the fields of its parent, and the parent's
place on the stack counted from the outside. Used in the model of `PThread.hpp.in:238-288` (`frameAt`). -/
inductive Frame (L : Type) where
  | lock (m : Nat) (lvl old : L)
  | unlock (parent : Nat) (m : Nat) (lvl old : L)

/-- What a thread does after it gets the mutex it waits for. Made of the parts of `PThread.hpp.in:238-288`. -/
inductive Then (L : Type) where
  | push (f : Frame L)
  | pop

/-- Used in the model of `PThread.hpp.in:238-288` (`State`). -/
structure Thread (L : Type) where
  /-- `cur_level`; `none` until `prepare()` (lines 35-40) -/
  cur : Option L
  frames : List (Frame L)
  wait : Option (Nat × Then L)

/-- Not a function of the code; stands for the uses of `PThread.hpp.in:238-288`. -/
structure State (L : Type) where
  thr : Nat → Thread L
  owner : Nat → Option Nat

/-- Made of the parts of `PThread.hpp.in:238-288`. -/
def initial : State L := ⟨fun _ => ⟨none, [], none⟩, fun _ => none⟩

/-- Used in the model of `PThread.hpp.in:238-288` (`step`). -/
def State.setThr (s : State L) (t : Nat) (x : Thread L) : State L := { s with thr := fun u => if u = t then x else s.thr u }
/-- Used in the model of `PThread.hpp.in:238-288` (`step`). -/
def State.setOwner (s : State L) (m : Nat) (o : Option Nat) : State L :=
  { s with owner := fun n => if n = m then o else s.owner n }

/-- `scopeDown` (`LockOrderingGroup.hpp:52-59`): the new level and `old_level`. Reading `*cur_level` of an unprepared
thread follows a null pointer. -/
def scopeDown (cur : Option L) (new : L) : Res (L × L) :=
  match cur with
  | none => .ub
  | some old => if old < new then .ok (new, old) else .abort

/-- `scopeUp` (lines 64-69). -/
def scopeUp (cur : Option L) (down old : L) : Res L :=
  match cur with
  | none => .ub
  | some c => if c = down then .ok old else .abort

/-- `mutex.unlock()`: undefined when the thread does not hold it. Used in the model of `PThread.hpp.in:238-288` (`step`). -/
def release (s : State L) (t m : Nat) : Res (State L) := if s.owner m = some t then .ok (s.setOwner m none) else .ub

/-- Not a function of the code; stands for the uses of `PThread.hpp.in:238-288`. -/
inductive Act (L : Type) where
  | prepare
  /-- construct a `PThreadScopedLock` -/
  | lock (m : Nat) (lvl : L)
  /-- construct a `PThreadScopedUnlock` for the scoped lock at this place, counted from the outside -/
  | unlock (parent : Nat)
  /-- destroy the innermost scoped object -/
  | destroy

/-- The scoped object at a place counted from the outside. Used in the model of `PThread.hpp.in:238-288` (`step`). -/
def frameAt (fs : List (Frame L)) (i : Nat) : Option (Frame L) := fs.reverse[i]?

/-- One step of thread `t`. A thread in `mutex.lock()` can only get the mutex once it is free. `PThread.hpp.in:238-288`. -/
def step (zero : L) (s : State L) (t : Nat) (a : Act L) : Res (State L) :=
  match (s.thr t).wait with
  | some (m, k) =>
    if s.owner m = none then
      .ok ((s.setOwner m (some t)).setThr t { s.thr t with
        wait := none
        frames := match k with
          | .push f => f :: (s.thr t).frames
          | .pop => (s.thr t).frames.tail })
    else .ok s
  | none =>
    match a with
    | .prepare => .ok (s.setThr t { s.thr t with cur := some ((s.thr t).cur.getD zero) })
    | .lock m lvl =>
      -- PThread.hpp.in:238-243
      match scopeDown (s.thr t).cur lvl with
      | .ok (cur, old) => .ok (s.setThr t { s.thr t with cur := some cur, wait := some (m, .push (.lock m lvl old)) })
      | .abort => .abort
      | .ub => .ub
    | .unlock i =>
      match frameAt (s.thr t).frames i with
      | some (.lock m lvl old) =>
        -- PThread.hpp.in:271-279
        match scopeUp (s.thr t).cur lvl old with
        | .ok cur =>
          release (s.setThr t { s.thr t with cur := some cur, frames := .unlock i m lvl old :: (s.thr t).frames }) t m
        | .abort => .abort
        | .ub => .ub
      | _ => .ub
    | .destroy =>
      match (s.thr t).frames with
      | .lock m lvl old :: fs =>
        -- PThread.hpp.in:246-256
        match release s t m with
        | .ok s1 =>
          match scopeUp (s.thr t).cur lvl old with
          | .ok cur => .ok (s1.setThr t { s.thr t with cur := some cur, frames := fs })
          | .abort => .abort
          | .ub => .ub
        | .abort => .abort
        | .ub => .ub
      | .unlock _ m lvl old :: _ =>
        -- PThread.hpp.in:281-288
        match scopeDown (s.thr t).cur lvl with
        | .ok (cur, tmp) =>
          if tmp = old then .ok (s.setThr t { s.thr t with cur := some cur, wait := some (m, .pop) }) else .abort
        | .abort => .abort
        | .ub => .ub
      | [] => .ub

/-- Not a function of the code; stands for the uses of `PThread.hpp.in:238-288`. -/
def run (zero : L) : State L → List (Nat × Act L) → Res (State L)
  | s, [] => .ok s
  | s, (t, a) :: l => do
    let s ← step zero s t a
    run zero s l

end Verif.LockOrd
