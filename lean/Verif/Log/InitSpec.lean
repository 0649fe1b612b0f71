import Verif.Log.InitModel

/-! # What is promised of the first use -/

namespace Verif.Log.Init.Spec
open Verif.Log.Init

/-- A thread that has come through has an object to use, that object is complete, and it is the only one there is. -/
def Ready (s : State) : Prop := ∃ o, s.inst = some o ∧ s.built o = true ∧ s.objs = 1

/-- `a` takes place before `b`. -/
def Before (order : List Micro) (a b : Micro) : Prop := ∃ p q r, order = p ++ a :: q ++ b :: r

/-- The orders that the two mutex operations allow: the same four steps; the lock comes before the unlock; what was written before the unlock stays before it, what was written
after the lock stays after it. -/
def Allowed (order : List Micro) : Prop :=
  order.length = 4 ∧ Before order .lockTmp .unlockTmp ∧ Before order .construct .unlockTmp ∧ Before order .lockTmp .publish

/-- The orders of a processor on which stores become visible in the order of the program. -/
def StoresInOrder (order : List Micro) : Prop :=
  (order.count .construct = 1 ∧ order.count .publish = 1) ∧ Before order .construct .publish

end Verif.Log.Init.Spec
