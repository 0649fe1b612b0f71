import Verif.Atomic.Model

/-! # What is expected of atomic operations, one at a time -/

namespace Verif.Atomic

/-- The new value and the result of each operation on a counter nobody else uses. -/
def apply (c : BitVec w) : Op w → BitVec w × Ret w
  | .load => (c, .val c)
  | .isZero => (c, .flag (decide (c = 0)))
  | .store v => (v, .val v)
  | .exchange v => (v, .val c)
  | .cas e d => if c = e then (d, .swapped true e) else (c, .swapped false c)
  | .fetchAdd v => (c + v, .val c)
  | .fetchSub v => (c - v, .val c)
  | .fetchOr v => (c ||| v, .val c)
  | .fetchAnd v => (c &&& v, .val c)
  | .fetchXor v => (c ^^^ v, .val c)
  | .addA v => (c + v, .val (c + v))
  | .subA v => (c - v, .val (c - v))
  | .orA v => (c ||| v, .val (c ||| v))
  | .andA v => (c &&& v, .val (c &&& v))
  | .xorA v => (c ^^^ v, .val (c ^^^ v))
  | .postInc => (c + 1, .val c)
  | .postDec => (c - 1, .val c)
  | .preInc => (c + 1, .val (c + 1))
  | .preDec => (c - 1, .val (c - 1))

/-- One finished operation of some thread. -/
structure Event (w : Nat) where
  tid : Nat
  op : Op w
  ret : Ret w

/-- The events, one after another, lead from `c` to `c'` with the results they carry. -/
inductive Legal : BitVec w → List (Event w) → BitVec w → Prop
  | nil (c) : Legal c [] c
  | cons (c : BitVec w) (e : Event w) (es : List (Event w)) (c' : BitVec w) :
      e.ret = (apply c e.op).2 → Legal (apply c e.op).1 es c' → Legal c (e :: es) c'

/-- What thread `t` did in a history. -/
def ofThread (t : Nat) (es : List (Event w)) : List (Op w × Ret w) :=
  (es.filter fun e => e.tid = t).map fun e => (e.op, e.ret)

/-- A number that a signed type of `w` bits has. -/
def Fits (w : Nat) (x : Int) : Prop := -2 ^ (w - 1) ≤ x ∧ x < 2 ^ (w - 1)

instance (w : Nat) (x : Int) : Decidable (Fits w x) := inferInstanceAs (Decidable (_ ∧ _))

/-- What an operation computes on a counter with value `c` is not a number of the type. The operations that return the value before and do not negate never do. -/
def Overflows (c : BitVec w) : Op w → Prop
  | .fetchSub v => ¬ Fits w (-v.toInt)
  | .addA v => ¬ Fits w (c.toInt + v.toInt)
  | .subA v => ¬ Fits w (-v.toInt) ∨ ¬ Fits w (c.toInt - v.toInt)
  | .preInc => ¬ Fits w (c.toInt + 1)
  | .preDec => ¬ Fits w (c.toInt - 1)
  | _ => False

end Verif.Atomic
