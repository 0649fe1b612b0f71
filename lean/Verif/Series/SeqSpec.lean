import Verif.Series.SeqModel

/-!
# What a sequence should hold
-/

namespace Verif.Series

/-- The points added since the last reset. -/
def points : List QOp → List Rat := fun ops => ops.foldl (fun l o => match o with | .add v => l ++ [v] | .reset => [] | .mode _ => l) []

/-- The mode in the end. -/
def modeAt (m : Mode) (ops : List QOp) : Mode := ops.foldl (fun m o => match o with | .mode m' => m' | _ => m) m

/-- The mode is only changed when there are no points. -/
def Legal (ops : List QOp) : Prop := ∀ a m b, ops = a ++ .mode m :: b → points a = []

/-- The points never were more than `2^30` for each place. -/
def Few (limit : Nat) (ops : List QOp) : Prop := ∀ a b, ops = a ++ b → (points a).length ≤ limit * 2 ^ 30

/-- `x` is the aggregate of the points `l`. -/
def IsAgg : Mode → List Rat → Rat → Prop
  | .sum, l, x => x = l.sum
  | .mean, l, x => x = l.sum / l.length
  | .max, l, x => x ∈ l ∧ ∀ y ∈ l, y ≤ x

/-- The `i`-th group of `n` consecutive points. -/
def bucket (n i : Nat) (l : List Rat) : List Rat := (l.drop (i * n)).take n

end Verif.Series
