import Verif.LogHisto.Model

/-! # What a logarithmic histogram counts -/

namespace Verif.LogHisto

/-- The values added since the last reset. -/
def vals (ops : List Op) : List ℝ := ops.foldl (fun l o => match o with | .add v => l ++ [v] | .add2 i _ => l ++ [i] | .reset => []) []

/-- The calls are those that the documentation allows: values are positive and, where there are two, equal. -/
def Legal : Op → Prop
  | .add v => 0 < v
  | .add2 i d => 0 < i ∧ i = d
  | .reset => True

/-- Edge `i` of the `n` bins of equal ratio between `low` and `high`. -/
noncomputable def edge (low high : ℝ) (n i : Nat) : ℝ := low * (high / low) ^ ((i : ℝ) / n)

/-- `v` belongs in bin `i`, where the end bins are for everything beyond. -/
def inBin (low high : ℝ) (n i : Nat) (v : ℝ) : Prop := (i = 0 ∨ edge low high n i ≤ v) ∧ (i + 1 = n ∨ v < edge low high n (i + 1))

open Classical in
/-- The number of values in bin `i`. -/
noncomputable def countIn (low high : ℝ) (n i : Nat) (vs : List ℝ) : Nat := vs.countP fun v => decide (inBin low high n i v)

/-- The value is less than 2^32 bins above the lower end of `n` bins from `low` to `high`. -/
def Near (low high : ℝ) (n : Nat) (v : ℝ) : Prop := n * Real.log (v / low) < 2 ^ 32 * Real.log (high / low)

/-- The values given to a call. -/
def given : Op → List ℝ
  | .add v => [v]
  | .add2 i _ => [i]
  | .reset => []

/-- The calls return, all their loops end, and leave `h`. -/
def Runs (A : Ar) (h0 : L) (ops : List Op) (h : L) : Prop := ∃ m0, ∀ m, m0 ≤ m → run A m h0 ops = .ok h

open Classical in
/-- The values in increasing order. -/
noncomputable def sorted (vs : List ℝ) : List ℝ := vs.mergeSort (fun a b => decide (a ≤ b))

/-- The pairs added since the last reset. -/
def pairs (ops : List OpA) : List (ℝ × ℝ) := ops.foldl (fun l o => match o with | .add i d => l ++ [(i, d)] | .reset => []) []

open Classical in
/-- The data added with an index in bin `i`. -/
noncomputable def dataIn (low high : ℝ) (n i : Nat) (ps : List (ℝ × ℝ)) : List ℝ := (ps.filter fun p => decide (inBin low high n i p.1)).map Prod.snd

end Verif.LogHisto
