import Verif.Stats.Model
import Verif.PQ.Model

/-!
# Statistics of intervals of time, and of reads and writes

`StatsSeriesGroup` of `/repo/src/StatsSeriesGroup.cpp` and `StatsRW` of `/repo/src/StatsRW.cpp`, with the headers of the same names. `r` rounds to a double after every
operation; with `r = id` the arithmetic is exact. `none` as a time is NaN, `none` as a statistic is `NULL`. The statistics that `StatsMaker` makes for the intervals are taken
to be of class `Stats`. Printing is left out.
-/

namespace Verif.Series

open Verif

/-- The fields, `StatsSeriesGroup.hpp:44-47` (without the name), with the inherited statistic. -/
structure SG where
  interval : Rat
  cur : Option Rat
  last : Option Rat
  first : Option Rat
  stats : List (Option Stats.St)
  st : Stats.St
deriving Repr, DecidableEq

/-- The constructor, `StatsSeriesGroup.cpp:16-24`. -/
def newSG (d : Rat) : SG := ⟨d, none, none, none, [], Stats.reset⟩

/-- `addStat`, `StatsSeriesGroup.cpp:82-93`. -/
def addStat (s : SG) : SG := { s with stats := s.stats ++ [some Stats.reset] }

/-- `setSeriesStart`, `StatsSeriesGroup.cpp:38-46`. -/
def setStart (s : SG) (t : Rat) : Res SG := do
  Res.require s.last.isNone
  pure (addStat { s with last := some t, cur := some t, first := some t })

/-- The loop `StatsSeriesGroup.cpp:61-65` after its first step; `fuel` bounds the number of rounds. -/
def skip (r : Rat → Rat) (d t : Rat) : Nat → Rat → List (Option Stats.St) → Res (Rat × List (Option Stats.St))
  | 0, _, _ => .ub
  | fuel + 1, cur, l => if d ≤ r (t - cur) then skip r d t fuel (r (cur + d)) (l ++ [none]) else .ok (cur, l)

/-- `StatsSeriesGroup.cpp:57-67`, for a group that was started. -/
def advance (r : Rat → Rat) (fuel : Nat) (s : SG) (t : Rat) : Res SG :=
  match s.cur with
  | none => .ok { s with last := some t }
  | some c =>
    if s.interval ≤ r (t - c) then do
      let p ← skip r s.interval t fuel (r (c + s.interval)) s.stats
      pure (addStat { s with last := some t, cur := some p.1, stats := p.2 })
    else .ok { s with last := some t }

/-- `StatsSeriesGroup.cpp:68-69`. -/
def record (r : Rat → Rat) (s : SG) (v : Rat) : Res SG :=
  match s.stats.getLast? with
  | some (some x) => .ok { s with stats := s.stats.dropLast ++ [some (Stats.add r x v)], st := Stats.add r s.st v }
  | _ => .ub

/-- `addTimeSeq`, `StatsSeriesGroup.cpp:48-70`. -/
def addTime (r : Rat → Rat) (fuel : Nat) (s : SG) (v t : Rat) : Res SG := do
  let s ← if s.last.isNone then setStart s t else .ok s
  Res.require (match s.last with | none => false | some u => decide (u ≤ t))
  let s ← advance r fuel s t
  record r s v

/-- `reset`, `StatsSeriesGroup.cpp:72-80`. -/
def resetSG (s : SG) : SG := { s with stats := [], cur := none, last := none, first := none }

/-- `getSeriesStat`, `StatsSeriesGroup.hpp:33-37`. A reference made from `NULL` is undefined. -/
def getStat (s : SG) (i : Nat) : Res Stats.St := do
  Res.require (decide (i < s.stats.length))
  match s.stats[i]? with
  | some (some x) => .ok x
  | _ => .ub

/-- Used in the model of `StatsSeriesGroup.cpp:38-80` (`stepSG`). -/
inductive GOp where
  | start (t : Rat)
  | add (v t : Rat)
  | reset
deriving Repr, DecidableEq

/-- Made of the parts of `StatsSeriesGroup.cpp:38-80`. -/
def stepSG (r : Rat → Rat) (fuel : Nat) (s : SG) : GOp → Res SG
  | .start t => setStart s t
  | .add v t => addTime r fuel s v t
  | .reset => .ok (resetSG s)

/-- Made of the parts of `StatsSeriesGroup.hpp:44-47`. -/
def runSG (r : Rat → Rat) (fuel : Nat) (s : SG) : List GOp → Res SG
  | [] => .ok s
  | o :: ops => do
    let s ← stepSG r fuel s o
    runSG r fuel s ops

/-! ## Reads and writes -/

/-- A component: `NULL`, a group, or a statistic of class `Stats` (or of another one that ignores times). Used in the model of `StatsRW.hpp:37-41` (`W`). -/
inductive Part where
  | null
  | group (g : SG)
  | plain (s : Stats.St)
deriving Repr, DecidableEq

/-- `enum modeT`, `StatsRW.hpp:21`. -/
inductive RW where
  | read
  | write
  | all
deriving Repr, DecidableEq

/-- The fields, `StatsRW.hpp:37-41`. -/
structure W where
  read : Part
  write : Part
  all : Part
  auto : Bool
  groups : Bool
deriving Repr, DecidableEq

/-- Used in the model of `StatsRW.cpp:28-34` (`newW`). -/
def Part.isGroup : Part → Bool
  | .group _ => true
  | _ => false

/-- The constructor from three statistics, `StatsRW.cpp:28-34` and `43-54`. -/
def newW (read write all : Part) : W := ⟨read, write, all, true, read.isGroup && write.isGroup && all.isGroup⟩

/-- `count`, of a component that is there. Used in the model of `StatsRW.cpp:59-63` (`startAll`). -/
def Part.count : Part → Res Nat
  | .null => .ub
  | .group g => .ok g.st.number
  | .plain s => .ok s.number

/-- `if (x) x->addTimeSeq(value, timeSeq)`. Used in the model of `StatsRW.cpp:65-86` (`addMode`). -/
def Part.add (r : Rat → Rat) (fuel : Nat) (v t : Rat) : Part → Res Part
  | .null => .ok .null
  | .group g => do
    let g ← addTime r fuel g v t
    pure (.group g)
  | .plain s => .ok (.plain (Stats.add r s v))

/-- `if (x) x->reset()`. Used in the model of `StatsRW.cpp:65-86` (`addMode`). -/
def Part.reset : Part → Part
  | .null => .null
  | .group g => .group (resetSG g)
  | .plain _ => .plain Stats.reset

/-- `dynamic_cast<StatsSeriesGroup *>(x)->setSeriesStart(timeSeq)`. Not a function of the code; stands for the uses of `StatsSeriesGroup.cpp:38-46`. -/
def Part.start (t : Rat) : Part → Res Part
  | .group g => do
    let g ← setStart g t
    pure (.group g)
  | _ => .ub

/-- `StatsRW.cpp:59-63`. -/
def startAll (w : W) (t : Rat) : Res W :=
  if w.groups then do
    let a ← w.read.count
    let b ← w.write.count
    if a = 0 ∧ b = 0 then do
      let x ← w.read.start t
      let y ← w.write.start t
      let z ← w.all.start t
      pure { w with read := x, write := y, all := z }
    else pure w
  else .ok w

/-- The rest of `add`, `StatsRW.cpp:65-86`. -/
def addMode (r : Rat → Rat) (fuel : Nat) (w : W) (v : Rat) (t : Rat) : RW → Res W
  | .read => do
    let x ← w.read.add r fuel v t
    if w.auto then do
      let z ← w.all.add r fuel v t
      pure { w with read := x, all := z }
    else pure { w with read := x }
  | .write => do
    let y ← w.write.add r fuel v t
    if w.auto then do
      let z ← w.all.add r fuel v t
      pure { w with write := y, all := z }
    else pure { w with write := y }
  | .all => do
    let z ← (if w.auto then w.all.reset else w.all).add r fuel v t
    pure { w with all := z, auto := false }

/-- `add`, `StatsRW.cpp:56-87`. -/
def addW (r : Rat → Rat) (fuel : Nat) (w : W) (o : RW × Rat × Rat) : Res W := do
  let w ← startAll w o.2.2
  addMode r fuel w o.2.1 o.2.2 o.1

/-- Made of the parts of `StatsRW.hpp:21-41`. -/
def runW (r : Rat → Rat) (fuel : Nat) (w : W) : List (RW × Rat × Rat) → Res W
  | [] => .ok w
  | o :: ops => do
    let w ← addW r fuel w o
    runW r fuel w ops

/-- The test that starts `printRome` and `printTabular`, `StatsRW.cpp:120-121` and `161-162`. -/
def onlyAll (w : W) : Res Bool := do
  let a ← w.read.count
  let b ← w.write.count
  let c ← w.all.count
  pure (decide (a = 0 ∧ b = 0 ∧ 0 < c))

end Verif.Series
