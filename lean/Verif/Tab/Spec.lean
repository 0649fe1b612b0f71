import Verif.Rome.Spec
import Verif.Tab.Model
import Verif.Histo.Spec

/-! # Reading tables -/

namespace Verif.Tab

open Verif Rome

/-- A word is ended; there may be none. -/
def close (w : Txt) (row : List Txt) : List Txt := if w.isEmpty then row else row ++ [w]

/-- Lines of words, with blanks between the words; `w` is the word that was begun and `row` what came before it on the line. -/
def tableFrom : Txt → List Txt → Txt → List (List Txt)
  | w, row, [] => if w.isEmpty && row.isEmpty then [] else [close w row]
  | w, row, c :: s =>
    if c = '\n' then close w row :: tableFrom [] [] s
    else if c = ' ' then tableFrom [] (close w row) s
    else tableFrom (w ++ [c]) row s

/-- The table a text stands for. -/
def table (s : Txt) : List (List Txt) := tableFrom [] [] s

/-- The rest of the first line of two words that begins with a name. -/
def get (name : String) (ts : List (List Txt)) : Option (List Txt) := (ts.find? fun l => l.head? == some name.toList && l.length == 2).map List.tail

/-- A line of words. -/
def ln (l : List String) : List Txt := l.map String.toList

/-- The lines between two lines. -/
def between (first last : List String) (ts : List (List Txt)) : List (List Txt) := ((ts.dropWhile (· != ln first)).drop 1).takeWhile (· != ln last)

/-- The lines of a histogram. -/
def histogram (ts : List (List Txt)) : List (List Txt) := between ["histogram", "begin"] ["histogram", "end"] ts

/-- The lines of its bins. -/
def counts (ts : List (List Txt)) : List (List Txt) :=
  between ["binCounts", "begin", "(low", "items", "sumitems", "%items(pdf)", "%total(cdf)", "binwidth)"] ["binCounts", "end"] ts

/-- What a table should say of any statistic. -/
structure SaysBase (f : Fmt) (ts : List (List Txt)) (b : Base) : Prop where
  count : get "count" ts = some [f.nat b.count]
  min : get "min" ts = some [f.dbl b.min]
  max : get "max" ts = some [f.dbl b.max]
  mean : get "mean" ts = some [if b.count = 0 then f.nat 0 else f.dbl b.mean]
  stddev : get "stddev" ts = some [if b.count = 0 then f.nat 0 else f.dbl b.stddev]
  variance : get "variance" ts = some [if b.count = 0 then f.nat 0 else f.dbl b.variance]
  conf95 : get "conf95" ts = some [if b.count = 0 then f.nat 0 else f.dbl b.conf95]
  total : get "total" ts = some [f.dbl b.total]
  totalSq : get "total_sq" ts = some [f.dbl b.totalSq]

/-- What a table should say of any histogram. `bins` is checked row by row in `SaysRows`. -/
structure SaysHist (f : Fmt) (ts : List (List Txt)) (h : Hist) : Prop where
  kind : get "type" ts = some [h.kind]
  low : get "low" ts = some [f.dbl (.q h.low)]
  high : get "high" ts = some [f.dbl (.q h.high)]
  bins : get "bins" ts = some [f.nat h.bins.length]
  rescales : 0 < h.rescales → get "rescales" ts = some [f.nat h.rescales]
  rescales0 : h.rescales = 0 → get "rescales" ts = none
  grows : 0 < h.grows → get "grows" ts = some [f.nat h.grows]
  grows0 : h.grows = 0 → get "grows" ts = none

/-- A row for each bin: its upper end, its count, the sum of the counts up to it, both as parts of all values, and its width. -/
structure SaysRows (r : Rat → Rat) (f : Fmt) (l : List (List Txt)) (count : Nat) (bins : List Bin) : Prop where
  length : l.length = bins.length
  row : ∀ (j : Nat) (x : Bin), bins[j]? = some x → l[j]? = some [f.dbl (.q x.high), f.nat x.count, f.nat ((bins.take (j + 1)).map Bin.count).sum,
    f.dbl (.q (r (r x.count / r count))), f.dbl (.q (r (r ((bins.take (j + 1)).map Bin.count).sum / r count))), f.dbl (.q x.width)]

/-- Nothing is printed for a series. -/
def Printable : Stat → Prop
  | .seriesGroup _ => False
  | .hist _ h => Word h.kind
  | .plain _ => True

/-- What the table of a statistic should say. -/
inductive Says (r : Rat → Rat) (f : Fmt) : Stat → List (List Txt) → Prop where
  | plain {b : Base} {ts : List (List Txt)} : SaysBase f ts b → Says r f (.plain b) ts
  | hist {b : Base} {h : Hist} {ts : List (List Txt)} : SaysBase f (histogram ts) b → SaysHist f (histogram ts) h →
      (0 < b.count → SaysRows r f (counts ts) b.count h.bins) → Says r f (.hist b h) ts

end Verif.Tab
