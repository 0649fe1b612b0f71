import Verif.Histo.Model

/-! # What a histogram counts -/

namespace Verif.Histo

/-- The values added since the last reset. -/
def vals (ops : List Op) : List Rat := ops.foldl (fun l o => match o with | .add v => l ++ [v] | .reset => []) []

/-- Bin `i` of `n` bins of width `w` from `low` on is for `v`; the end bins are for everything beyond. -/
def inBin (low w : Rat) (n i : Nat) (v : Rat) : Bool := decide ((i = 0 ∨ low + i * w ≤ v) ∧ (i + 1 = n ∨ v < low + (i + 1) * w))

/-- A growable histogram that has no more than `M` bins at first and only meets values less than `M` bins from its lower end. -/
def Fits (h0 : H) (M : Nat) (ops : List Op) : Prop := h0.grow = true → h0.n ≤ M ∧ M ≤ 100000000 ∧ ∀ v, Op.add v ∈ ops → |v - h0.low| ≤ M * h0.width

/-- The values in increasing order. -/
def sorted (vs : List Rat) : List Rat := vs.mergeSort (fun a b => decide (a ≤ b))

end Verif.Histo
