import Verif.Quantile.Model
import Mathlib.Data.Nat.Choose.Basic

/-! # What a quantile sketch stands for -/

namespace Verif.Quantile

variable {V : Type} [LinearOrder V]

/-- A lower set of values, such as "at most `x`" or "less than `x`". -/
def Down (p : V → Bool) : Prop := ∀ a b, a ≤ b → p b = true → p a = true

/-- The weight of the stored values that satisfy `p`. -/
def rk (p : V → Bool) (l : List (V × Nat)) : Nat := (l.map fun x => if p x.1 then x.2 else 0).sum

/-- The values a history added, in order. -/
def values : Hist V → List V
  | .new _ _ _ _ => []
  | .add h v => values h ++ [v]
  | .merge h h' => values h ++ values h'
  | .reset _ => []
  | .query h _ _ => values h

/-- `nbuffers` and `buffer_size` of a sketch. -/
def config : Hist V → Nat × Nat
  | .new n k _ _ => (n, k)
  | .add h _ | .merge h _ | .reset h | .query h _ _ => config h

/-- The bound on the number of values given to the constructor. -/
def bound : Hist V → Nat
  | .new _ _ b _ => b
  | .add h _ | .merge h _ | .reset h | .query h _ _ => bound h

/-- Histories within what the class can do: at least two buffers of at least ten values (checked by `init`), not more buffers than values in
one (`collapse_pos`), sizes in the range of `int`, fewer than `10^14` values, queries within the bound, and no merge of an empty sketch except into an empty one
of the same configuration. -/
def Sane : Hist V → Prop
  | .new n k _ _ => 1 < n ∧ 10 ≤ k ∧ n ≤ k ∧ k < 2147483648
  | .add h v => Sane h ∧ (values (.add h v)).length < 100000000000000
  | .merge h h' => Sane h ∧ Sane h' ∧ (values (.merge h h')).length < 100000000000000 ∧
    (values h' ≠ [] ∨ (values h = [] ∧ config h = config h'))
  | .reset h => Sane h
  | .query h t a => Sane h ∧ ((values h).length ≤ bound h ∨ a = true) ∧ (values h ≠ [] → t < (values h).length)

/-- The bound of the paper, `StatsQuantile.cpp:96-112`, in exact arithmetic: for some height `h`, the error of a tree of that height is within `ε`
(nothing is collapsed if `h = 2`), and the tree has room for `bound` values. -/
def Chosen (ε : Rat) (bound n k : Nat) : Prop :=
  0 ≤ ε ∧ ∃ h : Nat, 2 ≤ h ∧
    (h = 2 ∨ ((h : Rat) - 2) * (n + h - 2).choose (h - 1) - (n + h - 3).choose (h - 3) + (n + h - 3).choose (h - 2) ≤ 2 * ε * bound) ∧
    bound ≤ k * (n + h - 2).choose (h - 1)

/-- The number of values in the sketch is within what its sizes are good for; `P` says which sizes are good for how many values. -/
def Fit (P : Nat → Nat → Nat → Prop) (h : Hist V) : Prop := ∃ N, (values h).length ≤ N ∧ P N (config h).1 (config h).2

/-- Every sketch that took part was, all along, within what its sizes are good for. -/
def Good (P : Nat → Nat → Nat → Prop) : Hist V → Prop
  | .new n k b l => Fit P (.new n k b l : Hist V)
  | .add h v => Good P h ∧ Fit P (.add h v)
  | .merge h h' => Good P h ∧ Good P h' ∧ Fit P (.merge h h')
  | .reset h => Good P h
  | .query h _ _ => Good P h

/-- How deep merged sketches are nested. -/
def depth : Hist V → Nat
  | .new _ _ _ _ => 0
  | .add h _ => depth h
  | .merge h h' => max (depth h) (depth h' + 1)
  | .reset _ => 0
  | .query h _ _ => depth h

/-- The values in the first `m` cells of a buffer, with its weight. -/
def storedIn (m : Nat) (x : Slot V) : List (V × Int) := (((x.buf.getD []).take m).filterMap id).map fun v => (v, x.weight)

/-- The values a sketch stores, with their weights: the buffers before the current one are full. -/
def stored (s : Sk V) : List (V × Int) :=
  (s.slots.take (s.cur1 - 1)).flatMap (storedIn s.size) ++ (if s.cur1 = 0 then [] else (s.slots[s.cur1 - 1]?).toList.flatMap (storedIn s.pos))

/-- Among `vals`, sorted and counted from 1, `x` is at position `j`. -/
def AtPos (vals : List V) (x : V) (j : Nat) : Prop := (vals.insertionSort (· ≤ ·))[j - 1]? = some x ∧ 1 ≤ j

end Verif.Quantile
