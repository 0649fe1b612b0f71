import Verif.FLock.Model

/-! # What the lock is for, in terms of what happened (C122, C123) -/

namespace Verif.FLock

/-- The command of run `r` is running, or the script that was told `success` is between that and unlocking or ending. -/
def Inside (log : List Ev) (r : Nat) : Prop :=
  (.cmdStart r ∈ log ∧ ∀ st, .cmdEnd r st ∉ log) ∨ (.success r ∈ log ∧ .unlocked r ∉ log ∧ .callerGone r ∉ log)

/-- Somebody killed the program or its background process, or that process was not allowed to see that the script is alive. -/
def Disturbed (log : List Ev) (r : Nat) : Prop := .mainKilled r ∈ log ∨ .childKilled r ∈ log ∨ .misjudged r ∈ log

end Verif.FLock
