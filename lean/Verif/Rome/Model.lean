import Verif.Series.SeqModel

/-!
# The nested lists that statistics print

The `printRome` functions of `/repo/src/Stats.cpp`, `StatsHistogram.cpp`, `StatsSequence.cpp`, `StatsQuantile.cpp`, `StatsSeriesGroup.cpp` and `StatsRW.cpp`. How a stream prints
a double or an integer is a parameter. The values that a statistic computes (mean, deviation, ...) are fields here. `depth` is taken to be at least 0; a negative one prints as 0.
The checks of invariants before printing are left out.
-/

namespace Verif.Rome

open Verif

/-- Used in the model of `Stats.cpp:174-193` (`base`). -/
abbrev Txt := List Char

/-- A double. Used in the model of `Stats.hpp:66-88` (`Base`). -/
inductive Num where
  | q (x : Rat)
  | inf
  | ninf
  | nan
deriving Repr, DecidableEq

/-- What `<<` makes of a double and of an integer. Used in the model of `Stats.cpp:174-193` (`base`). -/
structure Fmt where
  dbl : Num → Txt
  nat : Nat → Txt

/-- The accessors of `Stats`, `Stats.hpp:66-88`. -/
structure Base where
  count : Nat
  min : Num
  max : Num
  mean : Num
  stddev : Num
  variance : Num
  conf95 : Num
  total : Num
  totalSq : Num
deriving Repr, DecidableEq

/-- A histogram: the accessors that are printed, `counts` by `operator[]`, `vals` by `value`. Used in the model of `StatsHistogram.cpp:258-263` (`histHead`). -/
structure Hist where
  low : Num
  high : Num
  width : Num
  rescales : Nat
  grows : Nat
  counts : List Nat
  vals : List Rat
deriving Repr, DecidableEq

/-- Any object of a class derived from `Stats`. For a sequence the width set with `setIntervalWidth` and the fields; for quantiles the rows that are printed; for a series the
fields with `none` for NULL. Used in the model of `StatsHistogram.cpp:926-947` (`render`). -/
inductive Stat where
  | plain (b : Base)
  | uniform (b : Base) (h : Hist)
  | log (b : Base) (h : Hist)
  | uniformAccum (b : Base) (h : Hist)
  | logAccum (b : Base) (h : Hist)
  | sequence (b : Base) (width : Rat) (s : Series.Q)
  | quantile (b : Base) (rows : List (Num × Num))
  | hgroup (b low high : Base) (hs : List Stat)
  | series (b : Base) (interval : Rat) (first last : Option Rat) (parts : List (Option Stat))

/-- `spaces`. Used in the model of `StatsHistogram.cpp:272-280` (`cells`). -/
def sp (d : Nat) : Txt := List.replicate d ' '

/-- A line such as `out << spaces << "{ min " << min() << " }\n"`. Used in the model of `Stats.cpp:174-193` (`base`). -/
def line (d : Nat) (name : Txt) (v : Txt) : Txt := sp d ++ "{ ".toList ++ name ++ " ".toList ++ v ++ " }\n".toList

/-- `Stats::printRome`, `Stats.cpp:174-193`. -/
def base (f : Fmt) (d : Nat) (b : Base) : Txt :=
  line d "count".toList (f.nat b.count) ++
    if 0 < b.count then
      line d "min".toList (f.dbl b.min) ++ line d "max".toList (f.dbl b.max) ++ line d "mean".toList (f.dbl b.mean) ++ line d "stddev".toList (f.dbl b.stddev) ++
        line d "variance".toList (f.dbl b.variance) ++ line d "conf95".toList (f.dbl b.conf95) ++ line d "total".toList (f.dbl b.total) ++ line d "total_sq".toList (f.dbl b.totalSq)
    else []

/-- The loop that prints the counts of the bins, `StatsHistogram.cpp:272-280`, with `per = 10` to a line; that of the means has 5, `StatsHistogram.cpp:690-698`. `j` is the
number of the bin. -/
def cells (d per pad : Nat) : Nat → List Txt → Txt
  | _, [] => []
  | j, x :: l => (if j % per = 0 ∧ 0 < j then "\n".toList ++ sp d ++ sp pad else if 0 < j then " ".toList else []) ++ x ++ cells d per pad (j + 1) l

/-- `if (numRescales() > 0)` and `if (numGrows() > 0)`, `StatsHistogram.cpp:265-270`. -/
def positive (f : Fmt) (d : Nat) (name : Txt) (n : Nat) : Txt := if 0 < n then line d name (f.nat n) else []

/-- The beginning of a histogram up to `bins`, `StatsHistogram.cpp:258-263`. -/
def histHead (f : Fmt) (d : Nat) (kind : Txt) (b : Base) (h : Hist) : Txt :=
  base f d b ++ sp d ++ "{ histogram {\n".toList ++ line (d + 2) "type".toList kind ++ line (d + 2) "low".toList (f.dbl h.low) ++ line (d + 2) "high".toList (f.dbl h.high) ++
    line (d + 2) "bins".toList (f.nat h.counts.length)

/-- `"  { binCounts ("` and the loop. Used in the model of `StatsHistogram.cpp:250-281` (`uniformText`). -/
def countCells (f : Fmt) (d : Nat) (h : Hist) : Txt := sp d ++ "  { binCounts (".toList ++ cells d 10 15 0 (h.counts.map f.nat)

/-- `this->value(j) / (double)((*this)[j])`, `StatsHistogram.cpp:697`. For an empty bin it divides by 0. -/
def binMean (r : Rat → Rat) (v : Rat) (n : Nat) : Num :=
  if n = 0 then (if v = 0 then .nan else if 0 < v then .inf else .ninf) else .q (r (v / r n))

/-- `"  { binMeans ("` and the loop. Used in the model of `StatsHistogram.cpp:655-700` (`uniformAccumText`). -/
def meanCells (r : Rat → Rat) (f : Fmt) (d : Nat) (h : Hist) : Txt :=
  sp d ++ "  { binMeans (".toList ++ cells d 5 14 0 ((h.vals.zip h.counts).map fun p => f.dbl (binMean r p.1 p.2))

/-- `StatsHistogramUniform::printRome`, `StatsHistogram.cpp:250-281`. -/
def uniformText (f : Fmt) (d : Nat) (b : Base) (h : Hist) : Txt :=
  histHead f d "uniform".toList b h ++ line (d + 2) "binwidth".toList (f.dbl h.width) ++ positive f (d + 2) "rescales".toList h.rescales ++
    positive f (d + 2) "grows".toList h.grows ++ countCells f d h ++ " ) } } }\n".toList

/-- `StatsHistogramLog::printRome`, `StatsHistogram.cpp:524-550`. -/
def logText (f : Fmt) (d : Nat) (b : Base) (h : Hist) : Txt := histHead f d "log".toList b h ++ countCells f d h ++ " ) } } }\n".toList

/-- `StatsHistogramUniformAccum::printRome`, `StatsHistogram.cpp:655-700`. -/
def uniformAccumText (r : Rat → Rat) (f : Fmt) (d : Nat) (b : Base) (h : Hist) : Txt :=
  histHead f d "uniformAccum".toList b h ++ positive f (d + 2) "rescales".toList h.rescales ++ positive f (d + 2) "grows".toList h.grows ++ countCells f d h ++ ")}\n".toList ++
    meanCells r f d h ++ " ) } } }\n".toList

/-- `StatsHistogramLogAccum::printRome`, `StatsHistogram.cpp:766-803`. -/
def logAccumText (r : Rat → Rat) (f : Fmt) (d : Nat) (b : Base) (h : Hist) : Txt :=
  histHead f d "logAccum".toList b h ++ countCells f d h ++ ")}\n".toList ++ meanCells r f d h ++ " ) } } } \n".toList

/-- The loop that counts how often values were merged, `StatsSequence.cpp:109-112`: `j` is an `int` and doubles. -/
def rescaleLoop (per : Nat) : Nat → Nat → Nat → Res Nat
  | 0, _, _ => .ub
  | fuel + 1, j, n => if j < per then (if 2 ^ 31 ≤ 2 * j then .ub else rescaleLoop per fuel (2 * j) (n + 1)) else .ok n

/-- The values of a sequence, each with a blank after it, `StatsSequence.cpp:116-118`. -/
def valueCells (f : Fmt) : List Rat → Txt
  | [] => []
  | v :: l => f.dbl (.q v) ++ " ".toList ++ valueCells f l

/-- The value of the points that do not fill a group yet, `StatsSequence.cpp:119-131`. -/
def extraValue (r : Rat → Rat) (s : Series.Q) : Rat :=
  match s.mode with
  | .mean => r (s.part / s.per)
  | _ => s.part

/-- `bool extra`, `StatsSequence.cpp:114`. -/
def hasExtra (s : Series.Q) : Bool := decide (s.remain < s.per)

/-- `StatsSequence::printRome`, `StatsSequence.cpp:98-134`. -/
def sequenceText (r : Rat → Rat) (f : Fmt) (d : Nat) (b : Base) (width : Rat) (s : Series.Q) : Res Txt := do
  let n ← rescaleLoop s.per 32 1 0
  pure (base f d b ++ sp d ++ "{ sequence {\n".toList ++ line (d + 2) "intervalWidth".toList (f.dbl (.q (r (width * s.per)))) ++ line (d + 2) "numRescales".toList (f.nat n) ++
    sp d ++ "  { values (".toList ++ valueCells f s.values ++ (if hasExtra s then f.dbl (.q (extraValue r s)) else []) ++ ")}\n".toList ++ sp d ++ "}}\n".toList)

/-- The rows of quantiles, `StatsQuantile.cpp:696`, `701` and `704`. -/
def rowCells (f : Fmt) (d : Nat) : List (Num × Num) → Txt
  | [] => []
  | x :: l => sp d ++ "  { ".toList ++ f.dbl x.1 ++ " ".toList ++ f.dbl x.2 ++ " }\n".toList ++ rowCells f d l

/-- `StatsQuantile::printRome`, `StatsQuantile.cpp:683-709`; which rows there are is in `Verif/Quantile/Print.lean`. -/
def quantileText (f : Fmt) (d : Nat) (b : Base) (rows : List (Num × Num)) : Txt :=
  base f d b ++ if 0 < b.count then sp d ++ "{ quantiles (\n".toList ++ rowCells f d rows ++ sp d ++ ") }\n".toList else []

/-- A time that may not be set: NaN then. Used in the model of `StatsHistogram.cpp:926-947` (`render`). -/
def time : Option Rat → Num
  | none => .nan
  | some t => .q t

/-- `i*interval + first_time`, `StatsSeriesGroup.cpp:115`. -/
def startOf (r : Rat → Rat) (interval : Rat) (first : Option Rat) (i : Nat) : Num :=
  match first with
  | none => .nan
  | some t => .q (r (r (i * interval) + t))

mutual

/-- `printRome` of any statistic. `StatsHistogramGroup`: `StatsHistogram.cpp:926-947`; `StatsSeriesGroup`: `StatsSeriesGroup.cpp:96-119`. -/
def render (r : Rat → Rat) (f : Fmt) : Stat → Nat → Res Txt
  | .plain b, d => .ok (base f d b)
  | .uniform b h, d => .ok (uniformText f d b h)
  | .log b h, d => .ok (logText f d b h)
  | .uniformAccum b h, d => .ok (uniformAccumText r f d b h)
  | .logAccum b h, d => .ok (logAccumText r f d b h)
  | .sequence b w s, d => sequenceText r f d b w s
  | .quantile b rows, d => .ok (quantileText f d b rows)
  | .hgroup b low high hs, d => do
    let t ← renderHists r f hs d
    pure (base f d b ++ sp d ++ "{ histogramGroup {\n".toList ++ sp d ++ "  { low {\n".toList ++ base f (d + 4) low ++ sp d ++ "  }}\n".toList ++ sp d ++ "  { high {\n".toList ++
      base f (d + 4) high ++ sp d ++ "  }}\n".toList ++ sp d ++ "  { histograms (\n".toList ++ t ++ sp d ++ " ) } } }\n".toList)
  | .series b interval first last parts, d => do
    let t ← renderParts r f interval first parts d 0
    pure (base f d b ++ line d "seriesInterval".toList (f.dbl (.q interval)) ++ line d "seriesStart".toList (f.dbl (time first)) ++ line d "seriesEnd".toList (f.dbl (time last)) ++
      sp d ++ "{ series (\n".toList ++ t ++ sp d ++ ")}\n".toList)

/-- The loop of `StatsHistogramGroup::printRome`, `StatsHistogram.cpp:941-945`. -/
def renderHists (r : Rat → Rat) (f : Fmt) : List Stat → Nat → Res Txt
  | [], _ => .ok []
  | s :: l, d => do
    let t ← render r f s (d + 6)
    let u ← renderHists r f l d
    pure (sp d ++ "    {\n".toList ++ t ++ sp d ++ "    }\n".toList ++ u)

/-- The loop of `StatsSeriesGroup::printRome`, `StatsSeriesGroup.cpp:108-117`. -/
def renderParts (r : Rat → Rat) (f : Fmt) (interval : Rat) (first : Option Rat) : List (Option Stat) → Nat → Nat → Res Txt
  | [], _, _ => .ok []
  | o :: l, d, i => do
    let t ← renderPart r f o d
    let u ← renderParts r f interval first l d (i + 1)
    pure (sp d ++ "  {\n".toList ++ t ++ line (d + 4) "interval_start".toList (f.dbl (startOf r interval first i)) ++ sp d ++ "  }\n".toList ++ u)

/-- `StatsSeriesGroup.cpp:110-114`. -/
def renderPart (r : Rat → Rat) (f : Fmt) : Option Stat → Nat → Res Txt
  | some s, d => render r f s (d + 4)
  | none, d => .ok (line (d + 4) "count".toList "0".toList)

end

/-- `count()`: that of the base class. Used in the model of `StatsRW.cpp:126-130` (`part`). -/
def Stat.base : Stat → Base
  | .plain b => b
  | .uniform b _ => b
  | .log b _ => b
  | .uniformAccum b _ => b
  | .logAccum b _ => b
  | .sequence b _ _ => b
  | .quantile b _ => b
  | .hgroup b _ _ _ => b
  | .series b _ _ _ _ => b

/-- A pointer is used. Used in the model of `StatsRW.cpp:112-145` (`renderRW`). -/
def deref {α : Type} : Option α → Res α
  | some a => .ok a
  | none => .ub

/-- One of the three parts of `StatsRW::printRome`, `StatsRW.cpp:126-130`. -/
def part (r : Rat → Rat) (f : Fmt) (d : Nat) (name : Txt) (s : Stat) : Res Txt :=
  if s.base.count ≠ 0 then do
    let t ← render r f s (d + 4)
    pure (sp d ++ "  { ".toList ++ name ++ " {\n".toList ++ t ++ sp d ++ "  }}\n".toList)
  else .ok []

/-- `StatsRW::printRome`, `StatsRW.cpp:112-145`. Each pointer is used on every way through, so all are dereferenced first. -/
def renderRW (r : Rat → Rat) (f : Fmt) (read write all : Option Stat) (d : Nat) : Res Txt := do
  let x ← deref read
  let y ← deref write
  let z ← deref all
  if x.base.count = 0 ∧ y.base.count = 0 ∧ 0 < z.base.count then render r f z d
  else do
    let tx ← part r f d "read".toList x
    let ty ← part r f d "write".toList y
    let tz ← part r f d "all".toList z
    pure (sp d ++ "{\n".toList ++ tx ++ ty ++ tz ++ sp d ++ "}\n".toList)

end Verif.Rome
