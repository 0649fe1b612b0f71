import Verif.Res

/-!
# Making statistics by name

`StatsMaker` of `/repo/src/StatsMaker.cpp` and `/repo/include/Lintel/StatsMaker.hpp`. What is made is the constructor that is called, with its arguments. In `statDefs` an absent
entry and one that is `NULL`, which `operator[]` leaves behind, are the same here: no function tells them apart. Names are shorter than `2^31`.
-/

namespace Verif.Maker

open Verif

/-- Used in the model of `StatsMaker.cpp:15-24` (`set`). -/
abbrev Name := List Char

/-- `StatsHistogram::HistMode`. Used in the model of `StatsMaker.hpp:64-73` (`Def`). -/
inductive Mode where
  | uniform
  | log
  | uniformAccum
  | logAccum
deriving Repr, DecidableEq

/-- The functions that `makeStatsFn` may be. Used in the model of `StatsMaker.hpp:64-73` (`Def`). -/
inductive Fn where
  | simple
  | histogram
  | group
  | sequence
deriving Repr, DecidableEq

/-- `statDefT`, `StatsMaker.hpp:64-73`. `none` is uninitialised. -/
structure Def where
  histmode : Option Mode
  bins : Option Int
  low : Option Rat
  high : Option Rat
  scalable : Option Bool
  growable : Option Bool
  ranges : List Rat
  fn : Fn

/-- The constructor of `statDefT`, `StatsMaker.hpp:72`. -/
def fresh : Def := ⟨none, none, none, none, none, none, [], .simple⟩

/-- `statDefs`. Used in the model of `StatsMaker.cpp:15-24` (`set`). -/
abbrev Defs := Name → Option Def

/-- Used in the model of `StatsMaker.cpp:15-24` (`set`). -/
def put (m : Defs) (k : Name) (d : Def) : Defs := fun x => if x = k then some d else m x

/-- What was asked for, or made. Used in the model of `StatsMaker.cpp:53-105` (`assign`). -/
inductive Made where
  | simple
  | histogram (mode : Mode) (bins : Int) (low high : Rat) (scalable growable : Bool)
  | group (mode : Mode) (bins : Int) (ranges : List Rat)
  | sequence (retain : Int)
deriving Repr, DecidableEq

/-- The assignments of the four `setMode` functions, `StatsMaker.cpp:53-105`. -/
def assign (d : Def) : Made → Def
  | .simple => { d with fn := .simple }
  | .histogram m b l h s g => { d with histmode := some m, bins := some b, low := some l, high := some h, scalable := some s, growable := some g, fn := .histogram }
  | .group m b rs => { d with histmode := some m, bins := some b, ranges := rs, fn := .group }
  | .sequence n => { d with bins := some n, fn := .sequence }

/-- `getCreateStatDef`, `StatsMaker.cpp:15-24`, and the assignments. -/
def set (m : Defs) (name : Name) (a : Made) : Defs := put m name (assign ((m name).getD fresh) a)

/-- `makeSimple`, `makeHistogram`, `makeHistogramGroup` and `makeSequence`, `StatsMaker.cpp:121-163`. Arguments that `Log` and `LogAccum` do not have are kept. -/
def construct (d : Def) : Res Made :=
  match d.fn with
  | .simple => .ok .simple
  | .histogram =>
    match d.histmode, d.bins, d.low, d.high, d.scalable, d.growable with
    | some m, some b, some l, some h, some s, some g => .ok (.histogram m b l h s g)
    | _, _, _, _, _, _ => .ub
  | .group =>
    match d.histmode, d.bins with
    | some m, some b => .ok (.group m b d.ranges)
    | _, _ => .ub
  | .sequence =>
    match d.bins with
    | some n => .ok (.sequence n)
    | none => .ub

/-- `tmp.rfind("-")` among the first `n` characters. Used in the model of `StatsMaker.cpp:33-49` (`search`). -/
def rfind (s : Name) : Nat → Option Nat
  | 0 => none
  | i + 1 => if s[i]? = some '-' then some i else rfind s i

/-- `while (i >= 0 && tmp[i] == '-') i--`, `StatsMaker.cpp:39-41`; the argument and the result are `i + 1`. -/
def back (s : Name) : Nat → Nat
  | 0 => 0
  | i + 1 => if s[i]? = some '-' then back s i else i + 1

/-- The loop of `getDefaultStatDef`, `StatsMaker.cpp:33-49`, with the name of what it finds. Running out of fuel would be running forever. -/
def search (m : Defs) : Nat → Name → Res (Option Name)
  | 0, _ => .ub
  | fuel + 1, tmp =>
    match rfind tmp tmp.length with
    | none => .ok none
    | some i => do
      Res.require (decide (tmp[i]? = some '-'))
      let tmp := tmp.take (back tmp (i + 1))
      if 0 < tmp.length then
        match m tmp with
        | some _ => .ok (some tmp)
        | none => search m fuel tmp
      else search m fuel tmp

/-- Used in the model of `StatsMaker.cpp:26-51` (`getDefault`). -/
def default : Name := "default".toList

/-- `getDefaultStatDef`, `StatsMaker.cpp:26-51`. -/
def getDefault (m : Defs) (name : Name) : Res (Def × Defs) :=
  match m name with
  | some d => .ok (d, m)
  | none => do
    let o ← search m (name.length + 1) name
    match o with
    | some k =>
      match m k with
      | some d => .ok (d, m)
      | none => .ub
    | none =>
      match m default with
      | some d => .ok (d, m)
      | none => .ok (fresh, put m default fresh)

/-- `make`, `StatsMaker.cpp:107-112`. -/
def make (m : Defs) (name : Name) : Res (Made × Defs) := do
  let p ← getDefault m name
  let x ← construct p.1
  pure (x, p.2)

/-- Not a function of the code; stands for the uses of `StatsMaker.cpp:15-112`. -/
inductive Op where
  | set (name : Name) (a : Made)
  | make (name : Name)

/-- Not a function of the code; stands for the uses of `StatsMaker.cpp:15-112`. -/
def step (m : Defs) : Op → Res Defs
  | .set name a => .ok (set m name a)
  | .make name => do
    let p ← make m name
    pure p.2

/-- Not a function of the code; stands for the uses of `StatsMaker.cpp:15-112`. -/
def run (m : Defs) : List Op → Res Defs
  | [] => .ok m
  | o :: ops => do
    let m ← step m o
    run m ops

/-- `statDefs` at the start. Made of the parts of `StatsMaker.cpp:15-24`. -/
def none' : Defs := fun _ => none

end Verif.Maker
