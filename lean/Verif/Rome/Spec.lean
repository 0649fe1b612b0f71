import Verif.Rome.Model

/-!
# Reading nested lists, and what they should say

A list is a sequence of words, of lists in braces and of lists in parentheses, with blanks and line ends between.
-/

namespace Verif.Rome

inductive Tok where
  | word (w : Txt)
  | ob
  | cb
  | op
  | cp
deriving Repr, DecidableEq

/-- What ends a word. -/
def delim (c : Char) : Bool := c == ' ' || c == '\n' || c == '\t' || c == '{' || c == '}' || c == '(' || c == ')'

def single (c : Char) : List Tok :=
  if c = '{' then [.ob] else if c = '}' then [.cb] else if c = '(' then [.op] else if c = ')' then [.cp] else []

def flush : Txt → List Tok
  | [] => []
  | w => [.word w]

/-- Words and brackets; `w` is the word that was begun. -/
def toksFrom : Txt → Txt → List Tok
  | w, [] => flush w
  | w, c :: s => if delim c then flush w ++ single c ++ toksFrom [] s else toksFrom (w ++ [c]) s

def toks (s : Txt) : List Tok := toksFrom [] s

inductive T where
  | w (s : Txt)
  | b (l : List T)
  | p (l : List T)

/-- Brackets have to match; `st` has what is open, the innermost first, and what was read before it, backwards. -/
def parse : List Tok → List (Bool × List T) → List T → Option (List T)
  | [], [], cur => some cur.reverse
  | [], _ :: _, _ => none
  | .word w :: ts, st, cur => parse ts st (.w w :: cur)
  | .ob :: ts, st, cur => parse ts ((true, cur) :: st) []
  | .op :: ts, st, cur => parse ts ((false, cur) :: st) []
  | .cb :: ts, (true, c) :: st, cur => parse ts st (.b cur.reverse :: c)
  | .cp :: ts, (false, c) :: st, cur => parse ts st (.p cur.reverse :: c)
  | .cb :: _, _, _ => none
  | .cp :: _, _, _ => none

/-- The list a text stands for. -/
def read (s : Txt) : Option (List T) := parse (toks s) [] []

/-- Texts that read as one word. -/
def Word (s : Txt) : Prop := s ≠ [] ∧ ∀ c ∈ s, delim c = false

/-- Numbers are printed as words. -/
structure Fmt.Ok (f : Fmt) : Prop where
  dbl : ∀ x, Word (f.dbl x)
  nat : ∀ n, Word (f.nat n)

/-- The value a list gives to a name: the rest of the first list in braces that begins with the name. -/
def value (name : String) : List T → Option (List T)
  | [] => none
  | .b (.w n :: v) :: l => if n = name.toList then some v else value name l
  | _ :: l => value name l

/-- The value is one word. -/
def Has (ts : List T) (name : String) (w : Txt) : Prop := value name ts = some [.w w]

/-- The value is a list in braces. -/
def HasList (ts : List T) (name : String) (l : List T) : Prop := value name ts = some [.b l]

/-- The value is a list in parentheses. -/
def HasArray (ts : List T) (name : String) (l : List T) : Prop := value name ts = some [.p l]

/-- What is said of any statistic. -/
structure SaysBase (f : Fmt) (ts : List T) (b : Base) : Prop where
  count : Has ts "count" (f.nat b.count)
  min : 0 < b.count → Has ts "min" (f.dbl b.min)
  max : 0 < b.count → Has ts "max" (f.dbl b.max)
  mean : 0 < b.count → Has ts "mean" (f.dbl b.mean)
  stddev : 0 < b.count → Has ts "stddev" (f.dbl b.stddev)
  variance : 0 < b.count → Has ts "variance" (f.dbl b.variance)
  conf95 : 0 < b.count → Has ts "conf95" (f.dbl b.conf95)
  total : 0 < b.count → Has ts "total" (f.dbl b.total)
  totalSq : 0 < b.count → Has ts "total_sq" (f.dbl b.totalSq)

/-- What is said of any histogram. -/
structure SaysHist (f : Fmt) (kind : String) (ts : List T) (h : Hist) : Prop where
  type : Has ts "type" kind.toList
  low : Has ts "low" (f.dbl h.low)
  high : Has ts "high" (f.dbl h.high)
  bins : Has ts "bins" (f.nat h.counts.length)
  counts : HasArray ts "binCounts" (h.counts.map fun n => .w (f.nat n))

/-- The means of the bins. -/
def SaysMeans (r : Rat → Rat) (f : Fmt) (ts : List T) (h : Hist) : Prop := ∃ l : List Txt, HasArray ts "binMeans" (l.map T.w) ∧ l.length = h.counts.length ∧
  ∀ (i n : Nat) (v : Rat), h.counts[i]? = some n → h.vals[i]? = some v → n ≠ 0 → l[i]? = some (f.dbl (.q (r (v / r n))))

/-- How often a histogram was rescaled or grown, said only if it was. -/
structure SaysChanges (f : Fmt) (ts : List T) (h : Hist) : Prop where
  rescales : 0 < h.rescales → Has ts "rescales" (f.nat h.rescales)
  rescales0 : h.rescales = 0 → value "rescales" ts = none
  grows : 0 < h.grows → Has ts "grows" (f.nat h.grows)
  grows0 : h.grows = 0 → value "grows" ts = none

/-- The numbers in an array of words. -/
def words (l : List Txt) : List T := l.map T.w

/-- What a list should say of a statistic. -/
inductive Says (r : Rat → Rat) (f : Fmt) : Stat → List T → Prop where
  | plain {b : Base} {ts : List T} : SaysBase f ts b → Says r f (.plain b) ts
  | uniform {b : Base} {h : Hist} {ts us : List T} : SaysBase f ts b → HasList ts "histogram" us → SaysHist f "uniform" us h → Has us "binwidth" (f.dbl h.width) →
      SaysChanges f us h → Says r f (.uniform b h) ts
  | log {b : Base} {h : Hist} {ts us : List T} : SaysBase f ts b → HasList ts "histogram" us → SaysHist f "log" us h → Says r f (.log b h) ts
  | uniformAccum {b : Base} {h : Hist} {ts us : List T} : SaysBase f ts b → HasList ts "histogram" us → SaysHist f "uniformAccum" us h → SaysChanges f us h → SaysMeans r f us h →
      Says r f (.uniformAccum b h) ts
  | logAccum {b : Base} {h : Hist} {ts us : List T} : SaysBase f ts b → HasList ts "histogram" us → SaysHist f "logAccum" us h → SaysMeans r f us h → Says r f (.logAccum b h) ts
  | sequence {b : Base} {w : Rat} {s : Series.Q} {j : Nat} {l : List Rat} {ts us : List T} : SaysBase f ts b → HasList ts "sequence" us →
      Has us "intervalWidth" (f.dbl (.q (r (w * s.per)))) → s.per = 2 ^ j → Has us "numRescales" (f.nat j) →
      HasArray us "values" (words (l.map fun v => f.dbl (.q v))) → l.take s.values.length = s.values → l.length ≤ s.values.length + 1 →
      (s.values.length < l.length ↔ s.remain < s.per) → Says r f (.sequence b w s) ts
  | quantile {b : Base} {rows : List (Num × Num)} {ts : List T} : SaysBase f ts b →
      (0 < b.count → HasArray ts "quantiles" (rows.map fun x => .b (words [f.dbl x.1, f.dbl x.2]))) → (b.count = 0 → value "quantiles" ts = none) → Says r f (.quantile b rows) ts
  | hgroup {b low high : Base} {hs : List Stat} {ts us ls ks : List T} {l : List (List T)} : SaysBase f ts b → HasList ts "histogramGroup" us → HasList us "low" ls →
      SaysBase f ls low → HasList us "high" ks → SaysBase f ks high → HasArray us "histograms" (l.map T.b) → l.length = hs.length →
      (∀ (i : Nat) s t, hs[i]? = some s → l[i]? = some t → Says r f s t) → Says r f (.hgroup b low high hs) ts
  | series {b : Base} {interval : Rat} {first last : Option Rat} {parts : List (Option Stat)} {ts : List T} {l : List (List T)} : SaysBase f ts b →
      Has ts "seriesInterval" (f.dbl (.q interval)) → (∀ t, first = some t → Has ts "seriesStart" (f.dbl (.q t))) → (∀ t, last = some t → Has ts "seriesEnd" (f.dbl (.q t))) →
      HasArray ts "series" (l.map T.b) → l.length = parts.length →
      (∀ (i : Nat) s u, parts[i]? = some (some s) → l[i]? = some u → Says r f s u) →
      (∀ (i : Nat) u, parts[i]? = some none → l[i]? = some u → Has u "count" "0".toList) →
      (∀ (i : Nat) u t, first = some t → l[i]? = some u → value "interval_start" u = some [.w (f.dbl (.q (r (r (i * interval) + t))))]) → Says r f (.series b interval first last parts) ts

mutual

/-- Sequences have a power of two of points to a value, as `Verif.Series` shows of all of them. -/
def Good : Stat → Prop
  | .sequence _ _ s => ∃ j, j < 31 ∧ s.per = 2 ^ j
  | .hgroup _ _ _ hs => GoodHists hs
  | .series _ _ _ _ parts => GoodParts parts
  | _ => True

def GoodHists : List Stat → Prop
  | [] => True
  | s :: l => Good s ∧ GoodHists l

def GoodParts : List (Option Stat) → Prop
  | [] => True
  | o :: l => GoodPart o ∧ GoodParts l

def GoodPart : Option Stat → Prop
  | some s => Good s
  | none => True

end

mutual

/-- Accumulating histograms have as many sums as counts. -/
def Sized : Stat → Prop
  | .uniformAccum _ h => h.vals.length = h.counts.length
  | .logAccum _ h => h.vals.length = h.counts.length
  | .hgroup _ _ _ hs => SizedHists hs
  | .series _ _ _ _ parts => SizedParts parts
  | _ => True

def SizedHists : List Stat → Prop
  | [] => True
  | s :: l => Sized s ∧ SizedHists l

def SizedParts : List (Option Stat) → Prop
  | [] => True
  | o :: l => SizedPart o ∧ SizedParts l

def SizedPart : Option Stat → Prop
  | some s => Sized s
  | none => True

end

/-- What the list of a `StatsRW` should say of one of its parts. -/
def SaysPart (r : Rat → Rat) (f : Fmt) (us : List T) (name : String) (s : Stat) : Prop :=
  (s.base.count = 0 → value name us = none) ∧ (s.base.count ≠ 0 → ∃ vs, HasList us name vs ∧ Says r f s vs)

end Verif.Rome
