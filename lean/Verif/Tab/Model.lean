import Verif.Rome.Model
import Verif.Histo.Model

/-!
# Statistics as tables

`printTabular` of `/repo/src/Stats.cpp`, `/repo/src/StatsHistogram.cpp`, `/repo/src/StatsRW.cpp` and `/repo/src/StatsSeriesGroup.cpp`, and `printHistogramRandomInput`. How a
number is printed is a parameter (`Rome.Fmt`); `r` rounds to a double. The accessors of a statistic are its fields here (`Rome.Base`), those of a histogram that depend on the
bin are a list. Sums of counts do not overflow, and writing does not fail. `std::endl` is a line end; that it also flushes is not modelled.
-/

namespace Verif.Tab

open Verif Rome

/-- A bin as a histogram tells it: `binhigh(j)`, `(*this)[j]` and `binWidth(j)`, `StatsHistogram.hpp:74-91`. -/
structure Bin where
  high : Rat
  count : Nat
  width : Rat
deriving Repr, DecidableEq

/-- The accessors of `StatsHistogram`, `StatsHistogram.hpp:74-91`. -/
structure Hist where
  kind : Txt
  low : Rat
  high : Rat
  rescales : Nat
  grows : Nat
  bins : List Bin
deriving Repr, DecidableEq

/-- A line such as `out << spaces << "min " << min() << "\n"`. Used in the model of `Stats.cpp:195-229` (`base`). -/
def line (d : Nat) (name v : Txt) : Txt := sp d ++ (name ++ (" ".toList ++ (v ++ "\n".toList)))

/-- `Stats::printTabular`, `Stats.cpp:195-229`. -/
def base (f : Fmt) (d : Nat) (b : Base) : Txt :=
  line d "count".toList (f.nat b.count) ++
    if 0 < b.count then
      line d "min".toList (f.dbl b.min) ++ (line d "max".toList (f.dbl b.max) ++ (line d "mean".toList (f.dbl b.mean) ++ (line d "stddev".toList (f.dbl b.stddev) ++
        (line d "variance".toList (f.dbl b.variance) ++ (line d "conf95".toList (f.dbl b.conf95) ++ (line d "total".toList (f.dbl b.total) ++ line d "total_sq".toList (f.dbl b.totalSq)))))))
    else
      line d "min".toList (f.dbl b.min) ++ (line d "max".toList (f.dbl b.max) ++ (line d "mean".toList (f.nat 0) ++ (line d "stddev".toList (f.nat 0) ++
        (line d "variance".toList (f.nat 0) ++ (line d "conf95".toList (f.nat 0) ++ (line d "total".toList (f.dbl b.total) ++ line d "total_sq".toList (f.dbl b.totalSq)))))))

/-- `n / (double) count()`, `StatsHistogram.cpp:312-313`. -/
def ratio (r : Rat → Rat) (n count : Nat) : Num :=
  if count = 0 then (if n = 0 then .nan else .inf) else .q (r (r n / r count))

/-- The loop over the bins, `StatsHistogram.cpp:309-315`; `sum` is the sum so far. -/
def rows (r : Rat → Rat) (f : Fmt) (count : Nat) : Nat → List Bin → Txt
  | _, [] => []
  | sum, x :: l =>
    f.dbl (.q x.high) ++ (" ".toList ++ (f.nat x.count ++ (" ".toList ++ (f.nat (sum + x.count) ++ (" ".toList ++ (f.dbl (ratio r x.count count) ++ (" ".toList ++
      (f.dbl (ratio r (sum + x.count) count) ++ (" ".toList ++ (f.dbl (.q x.width) ++ ("\n".toList ++ rows r f count (sum + x.count) l)))))))))))

/-- `if (numRescales() > 0)` and `if (numGrows() > 0)`, `StatsHistogram.cpp:299-304`. -/
def positive (f : Fmt) (name : Txt) (n : Nat) : Txt := if 0 < n then line 0 name (f.nat n) else []

/-- `StatsHistogram::printTabular`, `StatsHistogram.cpp:283-319`. Its own lines are not indented. -/
def histText (r : Rat → Rat) (f : Fmt) (d : Nat) (b : Base) (h : Hist) : Txt :=
  "histogram begin\n".toList ++ (base f d b ++ (line 0 "type".toList h.kind ++ (line 0 "low".toList (f.dbl (.q h.low)) ++ (line 0 "high".toList (f.dbl (.q h.high)) ++
    (line 0 "bins".toList (f.nat h.bins.length) ++ (positive f "rescales".toList h.rescales ++ (positive f "grows".toList h.grows ++
      ("binCounts begin (low items sumitems %items(pdf) %total(cdf) binwidth)\n".toList ++ (rows r f b.count 0 h.bins ++ "binCounts end\nhistogram end\n".toList)))))))))

/-- The lines of `printHistogramRandomInput`, `StatsHistogram.cpp:324-326`. -/
def inputRows (f : Fmt) : List Bin → Txt
  | [] => []
  | x :: l => f.dbl (.q x.high) ++ (" ".toList ++ (f.nat x.count ++ ("\n".toList ++ inputRows f l)))

/-- `printHistogramRandomInput`, `StatsHistogram.cpp:322-327`. -/
def inputText (f : Fmt) (h : Hist) : Txt := f.nat h.bins.length ++ ("\n".toList ++ inputRows f h.bins)

/-- A statistic that is to be printed: classes without a `printTabular` of their own are `plain`, see `Stats.hpp:91`, `StatsHistogram.hpp:88`, `StatsSeriesGroup.hpp:40`. -/
inductive Stat where
  | plain (b : Base)
  | hist (b : Base) (h : Hist)
  | seriesGroup (b : Base)

/-- `count()`, `Stats.hpp:76`. -/
def Stat.count : Stat → Nat
  | .plain b => b.count
  | .hist b _ => b.count
  | .seriesGroup b => b.count

/-- `printTabular` of any statistic; that of `StatsSeriesGroup` is unimplemented, `StatsSeriesGroup.cpp:121-125`. -/
def text (r : Rat → Rat) (f : Fmt) : Stat → Nat → Res Txt
  | .plain b, d => .ok (base f d b)
  | .hist b h, d => .ok (histText r f d b h)
  | .seriesGroup _, _ => .abort

/-- One of the three parts of `StatsRW::printTabular`, `StatsRW.cpp:167-171`. -/
def part (r : Rat → Rat) (f : Fmt) (d : Nat) (name : Txt) (s : Stat) : Res Txt :=
  if s.count ≠ 0 then do
    let t ← text r f s (d + 4)
    pure (name ++ (" begin\n".toList ++ (t ++ (name ++ " end\n".toList))))
  else .ok []

/-- `StatsRW::printTabular`, `StatsRW.cpp:148-185`; the three pointers are not null. -/
def textRW (r : Rat → Rat) (f : Fmt) (x y z : Stat) (d : Nat) : Res Txt :=
  if x.count = 0 ∧ y.count = 0 ∧ 0 < z.count then text r f z d
  else do
    let tx ← part r f d "read".toList x
    let ty ← part r f d "write".toList y
    let tz ← part r f d "all".toList z
    pure ("StatsRW begin\n".toList ++ (tx ++ (ty ++ (tz ++ "StatsRW end\n".toList))))

/-- The accessors of a uniform histogram, `StatsHistogram.hpp:136-150`; `num_grows` is not written after the constructor. -/
def ofUniform (r : Rat → Rat) (h : Histo.H) : Hist where
  kind := "uniform".toList
  low := h.low
  high := h.high
  rescales := h.rescales
  grows := 0
  bins := h.bins.mapIdx fun j c => ⟨r (h.low + r (r ((j + 1 : Nat) : Rat) * h.width)), c, h.width⟩

end Verif.Tab
