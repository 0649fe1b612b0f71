import Mathlib.Logic.Relation
import Verif.LockOrd.Model

/-! # Deadlock, independent of how the levels are kept -/

namespace Verif.LockOrd

variable {L : Type} [LinearOrder L]

/-- `t` waits for a mutex that `u` holds. -/
def WaitsFor (s : State L) (t u : Nat) : Prop := ∃ m k, (s.thr t).wait = some (m, k) ∧ s.owner m = some u

/-- A chain of waiting threads that comes back to its start. -/
def Deadlock (s : State L) : Prop := ∃ t, Relation.TransGen (WaitsFor s) t t

/-- `t` is not held up: it is not waiting, or for a mutex nobody holds. -/
def CanMove (s : State L) (t : Nat) : Prop := ∀ m k, (s.thr t).wait = some (m, k) → s.owner m = none

/-- Every mutex is always locked with its own level. -/
def Consistent (level : Nat → L) (acts : List (Nat × Act L)) : Prop := ∀ t m lvl, (t, .lock m lvl) ∈ acts → lvl = level m

/-- The scoped lock at place `i` has no living scoped unlock. -/
def NotUnlocked (fs : List (Frame L)) (i : Nat) : Prop := ∀ m lvl old, Frame.unlock i m lvl old ∉ fs

/-- No thread makes a scoped unlock for a scoped lock that is already unlocked by another. -/
def Disciplined (zero : L) (s : State L) (acts : List (Nat × Act L)) : Prop :=
  ∀ pre t i post s', acts = pre ++ (t, .unlock i) :: post → run zero s pre = .ok s' → NotUnlocked (s'.thr t).frames i

end Verif.LockOrd
