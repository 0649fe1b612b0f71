import Verif.Histo.AccumModel
import Verif.LogHisto.Model
import Verif.Series.SerModel
import Verif.Series.SeqModel
import Verif.Quantile.Model

/-!
# Another one, but fresh

`another_new` of the classes of statistics. Memory is not modelled: the new object is a value.
-/

namespace Verif.Another

open Verif

/-- The classes of statistics with their states. Part of the model of `Stats.hpp:102`, `StatsHistogram.hpp:99`, `161`, `215`, `254`, `299`, `StatsSeries.hpp:51`. The exponential moving average and
the group of series are left out; they are like the other classes that do not say anything about `another_new`. -/
inductive Obj where
  | plain (s : Stats.St)
  | uniform (h : Histo.H)
  | uniformAccum (a : Histo.A)
  | log (h : LogHisto.L)
  | logAccum (a : LogHisto.LA)
  | series (s : Series.Ser)
  | sequence (q : Series.Q)
  | quantile (q : Quantile.Sk Rat)
  | group (g : Histo.Group Histo.H)

/-- `StatsHistogramUniform::another_new`, `StatsHistogram.cpp:330-336`. -/
def uniform (r : Rat → Rat) (h : Histo.H) : Res Histo.H := Histo.new r h.n h.low h.high h.scal h.grow

/-- `StatsHistogramUniformAccum::another_new`, `StatsHistogram.cpp:700-706`. -/
def uniformAccum (r : Rat → Rat) (a : Histo.A) : Res Histo.A := Histo.newA r a.h.n a.h.low a.h.high a.h.scal a.h.grow

/-- `StatsHistogramLog::another_new`, `StatsHistogram.cpp:552-557`. -/
noncomputable def log (A : LogHisto.Ar) (h : LogHisto.L) : Res LogHisto.L := LogHisto.new A h.n h.small h.high h.scal

/-- `StatsHistogramLogAccum::another_new`, `StatsHistogram.cpp:805-809`. -/
noncomputable def logAccum (A : LogHisto.Ar) (a : LogHisto.LA) : Res LogHisto.LA := LogHisto.newA A a.h.n a.h.small a.h.high

/-- `StatsSeries::another_new`, `StatsSeries.cpp:184-188`; `x` is in the new arrays at first. -/
def series (x : Rat) (s : Series.Ser) : Res Series.Ser := Series.newSer x s.maxLag

/-- The call `another_new()`: of the class itself, or of `Stats` (`Stats.cpp:235-237`) where the class has none. -/
noncomputable def another (r : Rat → Rat) (A : LogHisto.Ar) (x : Rat) : Obj → Res Obj
  | .uniform h => do let h ← uniform r h; pure (.uniform h)
  | .uniformAccum a => do let a ← uniformAccum r a; pure (.uniformAccum a)
  | .log h => do let h ← log A h; pure (.log h)
  | .logAccum a => do let a ← logAccum A a; pure (.logAccum a)
  | .series s => do let s ← series x s; pure (.series s)
  | .plain _ | .sequence _ | .quantile _ | .group _ => .ok (.plain Stats.reset)

end Verif.Another
