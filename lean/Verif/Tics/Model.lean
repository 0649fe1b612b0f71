/-!
# Model of `Plot::Mercury::Tics`

`/repo/src/Plot/Mercury/Tics.pm:10-161`. Times are whole seconds. A time zone is what it adds to a time; `localtime` follows from it. A label is kept as what it shows, not as text; the day of the month is a parameter, a function of the number of the day. The place of a tick is kept in seconds since the epoch also where the code
writes hours since the start (the division by 3600 is left out, with its rounding). Loops that seek a time have fuel.
-/

namespace Verif.Tics

/-- A time zone: seconds east of Greenwich at a time, and the days of the month. Used in the model of `Tics.pm:61-92` (`tick`). -/
structure Zone where
  off : Int → Int
  mdayOf : Int → Nat

/-- The fields of `localtime`. Used in the model of `Tics.pm:61-92` (`Zone.day`). -/
def Zone.loc (z : Zone) (t : Int) : Int := t + z.off t
/-- Used in the model of `Tics.pm:61-92` (`tick`). -/
def Zone.day (z : Zone) (t : Int) : Int := z.loc t / 86400
/-- Used in the model of `Tics.pm:61-92` (`tick`). -/
def Zone.hour (z : Zone) (t : Int) : Int := z.loc t % 86400 / 3600
/-- Used in the model of `Tics.pm:61-92` (`tick`). -/
def Zone.min (z : Zone) (t : Int) : Int := z.loc t % 3600 / 60
/-- Used in the model of `Tics.pm:61-92` (`tick`). -/
def Zone.sec (z : Zone) (t : Int) : Int := z.loc t % 60
/-- The epoch was a Thursday. Used in the model of `Tics.pm:107-124` (`weekly`). -/
def Zone.wday (z : Zone) (t : Int) : Int := (z.day t + 4) % 7
/-- Used in the model of `Tics.pm:131-146` (`monthly`). -/
def Zone.mday (z : Zone) (t : Int) : Nat := z.mdayOf (z.day t)

/-- Used in the model of `Tics.pm:61-92` (`tick`). -/
inductive Label where
  | date (day : Int)
  | hm (h m : Int)
  | hms (h m s : Int)
deriving DecidableEq, Repr

/-- Lines 21-47: the step, `none` for `plottics_large`. -/
def tickstep (nsecs : Int) : Option Int :=
  if nsecs ≤ 300 then some 30
  else if nsecs ≤ 600 then some 60
  else if nsecs ≤ 1 * 3600 then some 180
  else if nsecs ≤ 3 * 3600 then some 600
  else if nsecs ≤ 6 * 3600 then some 1800
  else if nsecs ≤ 12 * 3600 then some (1 * 3600)
  else if nsecs ≤ 24 * 3600 then some (2 * 3600)
  else if nsecs ≤ 48 * 3600 then some (4 * 3600)
  else if nsecs ≤ 6 * 12 * 3600 then some (6 * 3600)
  else if nsecs ≤ 8 * 12 * 3600 then some (8 * 3600)
  else if nsecs ≤ 12 * 12 * 3600 then some (12 * 3600)
  else if nsecs < 24 * 12 * 3600 then some (24 * 3600)
  else none

/-- A loop that adds an hour until the test holds: lines 50-54, 101-103, 120-122, 142-144. -/
def seek (p : Int → Bool) : Nat → Int → Option Int
  | 0, _ => none
  | n + 1, t => if p t then some t else seek p n (t + 3600)

/-- Lines 56-58: the first place that is not before the start. -/
def skip (start step : Int) (h : 0 < step) (lmin : Int) : Int :=
  if lmin < start then skip start step h (lmin + step) else lmin
termination_by (start - lmin).toNat
decreasing_by omega

/-- Lines 61-92, for one tick: label and place; `none` if it dies. -/
def tick (z : Zone) (rel : Bool) (step lmin : Int) : Option (Label × Int) :=
  let tmin :=
    if step ≥ 24 * 3600 then
      if z.hour lmin = 1 then lmin - 3600 else if z.hour lmin = 23 then lmin + 3600 else lmin
    else lmin
  let place := if rel then tmin else lmin
  if z.hour tmin = 0 then
    if z.min tmin = 0 ∧ z.sec tmin = 0 then some (.date (z.day tmin), place) else none
  else if z.sec tmin = 0 then some (.hm (z.hour tmin) (z.min tmin), place)
  else some (.hms (z.hour tmin) (z.min tmin) (z.sec tmin), place)

/-- The loop of line 60. -/
def ticks (z : Zone) (rel : Bool) (stop step : Int) (h : 0 < step) (lmin : Int) : Option (List (Label × Int)) :=
  if lmin < stop then
    match tick z rel step lmin, ticks z rel stop step h (lmin + step) with
    | some t, some ts => some (t :: ts)
    | _, _ => none
  else some []
termination_by (stop - lmin).toNat
decreasing_by omega

/-- The weekly ticks, lines 107-124. -/
def weekly (z : Zone) (fuel : Nat) (stop wday : Int) : Nat → Int → Option (List (Label × Int))
  | 0, _ => none
  | n + 1, t =>
    if t < stop then
      match seek (fun u => decide (z.wday u = wday)) fuel (t + 86400 * 6) with
      | none => none
      | some u => (weekly z fuel stop wday n u).map fun ts => (.date (z.day t), t) :: ts
    else some []

/-- The monthly ticks, lines 131-146; `prev` is the place of the last one. `minstep` hours are an eleventh of the range. -/
def monthly (z : Zone) (fuel : Nat) (range stop : Int) (mday : Nat) : Nat → Int → Int → Option (List (Label × Int))
  | 0, _, _ => none
  | n + 1, t, prev =>
    if t ≤ stop then
      match seek (fun u => decide (z.mday u = mday)) fuel (t + 86400 * 26) with
      | none => none
      | some u =>
        if (t - prev) * 11 > range then (monthly z fuel range stop mday n u t).map fun ts => (.date (z.day t), t) :: ts
        else monthly z fuel range stop mday n u prev
    else some []

/-- `plottics_large`, lines 95-159. -/
def large (z : Zone) (fuel n : Nat) (start stop : Int) : Option (List (Label × Int)) :=
  match seek (fun u => decide (z.hour u = 0)) fuel (3600 * (start.tdiv 3600)) with
  | none => none
  | some daymin =>
    if stop - start ≤ 12 * 7 * 86400 then weekly z fuel stop (z.wday daymin) n daymin
    else (monthly z fuel (stop - start) stop (z.mday daymin) n daymin (start - 1000000 * 3600)).map fun ts =>
      ts.dropLast ++ [(.date (z.day stop), stop)]

theorem ite_pos {c : Prop} [Decidable c] {a step : Int} {r : Option Int} (ha : 0 < a) (hr : r = some step → 0 < step) :
    (if c then some a else r) = some step → 0 < step := by
  intro h
  split at h
  · cases h; exact ha
  · exact hr h

theorem tickstep_pos {nsecs step : Int} (h : tickstep nsecs = some step) : 0 < step := by
  revert h
  unfold tickstep
  repeat (refine ite_pos (by decide) ?_)
  intro h; cases h

/-- `plottics`, lines 10-93. -/
def plottics (z : Zone) (fuel n : Nat) (start stop : Int) (rel : Bool) : Option (List (Label × Int)) :=
  match h : tickstep (stop - start) with
  | none => large z fuel n start stop
  | some step =>
    match seek (fun u => decide (z.hour u = 0)) fuel (48 * 3600 * (start.tdiv (48 * 3600)) - 24 * 3600) with
    | none => none
    | some lmin => ticks z rel stop step (tickstep_pos h) (skip start step (tickstep_pos h) lmin)

end Verif.Tics
