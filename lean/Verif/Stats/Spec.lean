import Verif.Stats.Model

/-! # What a statistic is about -/

namespace Verif.Stats

/-- The values a history added. -/
def values : Hist → List Rat
  | .new => []
  | .add h v => values h ++ [v]
  | .merge h h' => values h ++ values h'
  | .reset _ => []

/-- `m` is the smallest of `vs`; `none` if there is none. -/
def IsMin (vs : List Rat) : Option Rat → Prop
  | none => vs = []
  | some m => m ∈ vs ∧ ∀ v ∈ vs, m ≤ v

/-- `m` is the largest of `vs`; `none` if there is none. -/
def IsMax (vs : List Rat) : Option Rat → Prop
  | none => vs = []
  | some m => m ∈ vs ∧ ∀ v ∈ vs, v ≤ m

/-- The average. -/
def avg (vs : List Rat) : Rat := vs.sum / vs.length

/-- The number of calls since the last reset, in all the statistics that were merged. -/
def calls : Hist → Nat
  | .new => 0
  | .add h _ => calls h + 1
  | .merge h h' => max (calls h) (calls h') + 1
  | .reset _ => 0

/-- The history of adding values one at a time. -/
def adds (h : Hist) (vs : List Rat) : Hist := vs.foldl .add h

end Verif.Stats
