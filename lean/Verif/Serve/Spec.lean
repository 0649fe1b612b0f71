import Verif.Serve.Model

/-!
# What is expected of the server (C220)
-/

namespace Verif.Serve

/-- The tests that were made, in order. -/
def tests : List Ev → List (Nat × Bool × Txt)
  | [] => []
  | .test v ok h :: es => (v, ok, h) :: tests es
  | _ :: es => tests es

/-- The number of tests at the end (the list is given backwards) that failed with the heads `h`. -/
def sameFailures (h : Txt) : List (Nat × Bool × Txt) → Nat
  | (_, false, h') :: ts => if h' = h then sameFailures h ts + 1 else 0
  | _ => 0

/-- How often in a row the tests at the end have failed with the same heads. -/
def inRow (es : List Ev) : Nat :=
  match (tests es).reverse with
  | [] => 0
  | (v, ok, h) :: ts => sameFailures h ((v, ok, h) :: ts)

/-- The last database tested. -/
def lastTested (es : List Ev) : Option Nat := ((tests es).getLast?).map (·.1)

/-- Nobody is at work, and no signal is there. -/
def Idle (s : S) : Prop := s.waiting = 0 ∧ s.hook = .none ∧ s.updated = false ∧ s.pc = .wait

/-- While the process has cleared its flag but not got the lock, no hook has it; and every test prints heads. -/
def Calm : S → List Move → Prop
  | s, ms => (s.pc = .cleared → s.hook = .none) ∧ match ms with
    | [] => True
    | m :: ms => (∀ ok heads, m = .finish ok heads → heads ≠ []) ∧ ∀ s', step s m = some s' → Calm s' ms

end Verif.Serve
