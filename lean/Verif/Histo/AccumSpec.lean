import Verif.Histo.AccumModel
import Verif.Histo.Spec

/-! # What the histograms that sum up, and the groups, hold -/

namespace Verif.Histo

/-- The pairs of index and data that were added since the last reset. -/
def pairs (ops : List Op2) : List (Rat × Rat) := ops.foldl (fun l o => match o with | .add i d => l ++ [(i, d)] | .reset => []) []

/-- The data that was added with an index in the bin. -/
def dataIn (low w : Rat) (n k : Nat) (ps : List (Rat × Rat)) : List Rat := (ps.filter fun p => inBin low w n k p.1).map Prod.snd

/-- `v` is between bound `i` (inclusive) and bound `i + 1`. -/
def between (ranges : List Rat) (i : Nat) (v : Rat) : Bool :=
  match ranges[i]?, ranges[i + 1]? with
  | some a, some b => decide (a ≤ v ∧ v < b)
  | _, _ => false

/-- `v` is less than all the bounds. -/
def below (ranges : List Rat) (v : Rat) : Bool := ranges.all fun x => decide (v < x)

/-- `v` is no less than any of the bounds. -/
def above (ranges : List Rat) (v : Rat) : Bool := ranges.all fun x => decide (x ≤ v)

/-- The calls that concern histogram `i`. -/
def concerns (ranges : List Rat) (i : Nat) : Op2 → Bool
  | .add v _ => between ranges i v
  | .reset => true

end Verif.Histo
