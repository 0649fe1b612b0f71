import Verif.Deque.Model

/-!
# What a user expects of a queue

The state is the list of elements, oldest first. `none` means the caller broke a documented
precondition (front/back/pop of an empty queue, `at` beyond the size, `reserve` of a
non-empty queue or of an impossible size).
-/

namespace Verif.Deque

variable {α : Type}

def specStep (l : List α) : Op α → Option (List α × Out α)
  | .push v => some (l ++ [v], .unit)
  | .pushSelf i => l[i]?.map fun v => (l ++ [v], .unit)
  | .pushAll vs => some (l ++ vs, .unit)
  | .pop => match l with
    | [] => none
    | _ :: t => some (t, .unit)
  | .clear => some ([], .unit)
  | .reserve n => if l = [] ∧ 0 < n ∧ n < 2 ^ 64 - 1 then some ([], .unit) else none
  | .front => l.head?.map fun v => (l, .val v)
  | .back => l.getLast?.map fun v => (l, .val v)
  | .at i => l[i]?.map fun v => (l, .val v)
  | .size => some (l, .nat l.length)
  | .empty => some (l, .bool l.isEmpty)

def specRun (l : List α) : List (Op α) → Option (List α × List (Out α))
  | [] => some (l, [])
  | op :: ops => do
    let (l, o) ← specStep l op
    let (l, os) ← specRun l ops
    pure (l, o :: os)

end Verif.Deque
