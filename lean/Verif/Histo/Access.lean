import Verif.Histo.AccumModel
import Verif.LogHisto.Model

/-!
# Reading histograms

The access functions of the histograms in `/repo/include/Lintel/StatsHistogram.hpp` and `/repo/src/StatsHistogram.cpp`. `checkInvariants` is true (`Stats.cpp:38-40`).
-/

namespace Verif.Histo

open Verif

/-- `operator[]`, `StatsHistogram.cpp:84-88`: the check allows an index that is the number of bins. -/
def countAt (h : H) (i : Nat) : Res Nat := do
  Res.require (decide (i ≤ h.n))
  PQ.rd h.bins i

/-- `value`, `StatsHistogram.cpp:643-647`. -/
def valueAt (a : A) (i : Nat) : Res Rat := do
  Res.require (decide (i ≤ a.h.n))
  PQ.rd a.val i

/-- `binlow`, `StatsHistogram.hpp:139`. -/
def binlow (r : Rat → Rat) (h : H) (i : Nat) : Rat := r (h.low + r (i * h.width))

/-- `bincenter`, `StatsHistogram.hpp:140`. -/
def bincenter (r : Rat → Rat) (h : H) (i : Nat) : Rat := r (h.low + r (r (i + 1 / 2) * h.width))

/-- `binhigh`, `StatsHistogram.hpp:142`: `index+1` is 32-bit arithmetic. -/
def binhigh (r : Rat → Rat) (h : H) (i : Nat) : Rat := r (h.low + r (((i + 1) % 2 ^ 32 : Nat) * h.width))

/-- `binWidth`, `StatsHistogram.hpp:136-137`, with and without an index. -/
def binWidth (h : H) : Rat := h.width

/-- `numGrows`, `StatsHistogram.hpp:145`: `num_grows` is set to 0 by the constructor (`StatsHistogram.cpp:55`) and by nothing else. -/
def numGrows (_ : H) : Nat := 0

/-- `numRescales`, `StatsHistogram.hpp:144`. -/
def numRescales (h : H) : Nat := h.rescales

end Verif.Histo

namespace Verif.LogHisto

open Verif

/-- `operator[]`, `StatsHistogram.cpp:396-400`. -/
def countAt (h : L) (i : Nat) : Res Nat := do
  Res.require (decide (i ≤ h.n))
  PQ.rd h.bins i

/-- `binWidth(index)`, `StatsHistogram.hpp:194`. -/
noncomputable def binWidth (A : Ar) (h : L) (i : Nat) : ℝ := A.r (binOffset A h ((i + 1) % 2 ^ 32 : Nat) - binOffset A h i)

/-- `binWidth()`, `StatsHistogram.hpp:193`. -/
noncomputable def binWidth0 (A : Ar) (h : L) : ℝ := binOffset A h 1

end Verif.LogHisto
