import Verif.Batch.Sched

/-! # What a log of a parallel build says (C124) -/

namespace Verif.Batch
variable {α : Type}

/-- The things started, newest first. -/
def starts (log : List (Ev α)) : List α := log.filterMap fun | .started a => some a | _ => none

/-- The things whose process ended, with success or not, newest first. -/
def exits (log : List (Ev α)) : List (α × Bool) := log.filterMap fun | .exited a st => some (a, st == 0) | _ => none

/-- What the module was told, newest first. -/
def reports (log : List (Ev α)) : List (α × Bool) := log.filterMap fun | .success a => some (a, true) | .fail a => some (a, false) | _ => none

/-- The things printed instead of started, newest first. -/
def messages (log : List (Ev α)) : List α := log.filterMap fun | .message a => some a | _ => none

/-- At every moment at most `par` processes were running. -/
def AtMost (par : Nat) (log : List (Ev α)) : Prop := ∀ l, l <:+ log → (starts l).length ≤ (exits l).length + par

end Verif.Batch
