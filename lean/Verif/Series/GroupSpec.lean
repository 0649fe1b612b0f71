import Mathlib.Data.Rat.Floor
import Verif.Series.GroupModel
import Verif.Stats.Spec

/-!
# What a group of intervals should hold
-/

namespace Verif.Series

open Verif

/-- The start of the series and its values with their times, since the last reset. -/
def epoch (ops : List GOp) : Option (Rat × List (Rat × Rat)) :=
  ops.foldl (fun e o => match o, e with
    | .start t, _ => some (t, [])
    | .add v t, none => some (t, [(v, t)])
    | .add v t, some (t0, l) => some (t0, l ++ [(v, t)])
    | .reset, _ => none) none

/-- The latest time of a series. -/
def latest (t0 : Rat) (l : List (Rat × Rat)) : Rat := (l.getLast?.map Prod.snd).getD t0

/-- Times do not go back, and a series is started once. -/
def Timely (ops : List GOp) : Prop := ∀ a o b, ops = a ++ o :: b → match o with
  | .start _ => epoch a = none
  | .add _ t => ∀ t0 l, epoch a = some (t0, l) → latest t0 l ≤ t
  | .reset => True

/-- The number of the interval of time `t`. -/
def slot (t0 d t : Rat) : Int := ⌊(t - t0) / d⌋

/-- The values of interval `i`. -/
def inSlot (t0 d : Rat) (l : List (Rat × Rat)) (i : Nat) : List Rat := (l.filter fun p => decide (slot t0 d p.2 = i)).map Prod.fst

end Verif.Series
