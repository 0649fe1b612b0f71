import Verif.Stats.Model

/-! # Statistics in perl

Model of `SSP::Lintel::Stats`, src/perl/lib/SSP/Lintel/Stats.pm. `r` rounds after every operation, as in `Verif.Stats.Model`; values are doubles (perl adds small integers as integers, which gives the same numbers). Square roots are not computed: `stddev` gives the number whose root is taken. -/

namespace Verif.Stats.Perl

/-- Not a function of the code; stands for the uses of `Stats.pm:3-30`. -/
structure St where
  count : Nat
  sum : Rat
  sumsq : Rat
  max : Rat
  min : Rat
deriving DecidableEq

/-- `1e100`. Used in the model of `Stats.pm:3-10` (`new`). -/
def big (r : Rat → Rat) : Rat := r (10 ^ 100)

/-- `new`, Stats.pm:3-10. -/
def new (r : Rat → Rat) : St := ⟨0, 0, 0, -big r, big r⟩

/-- `add`, Stats.pm:12-18. -/
def add (r : Rat → Rat) (s : St) (v : Rat) : St :=
  { count := s.count + 1
    sum := r (s.sum + v)
    max := if s.max < v then v else s.max
    min := if v < s.min then v else s.min
    sumsq := r (s.sumsq + r (v * v)) }

/-- `mean`, Stats.pm:20-23; `none` is the string `NaN`. -/
def mean (r : Rat → Rat) (s : St) : Option Rat := if s.count = 0 then none else some (r (s.sum / r s.count))

/-- Used in the model of `Stats.pm:25-30` (`stddev`). -/
inductive Dev where
  /-- the string `NaN` -/
  | nan
  /-- `sqrt` dies for a negative number -/
  | died
  /-- the root of this -/
  | root (v : Rat)
deriving DecidableEq

/-- `stddev`, Stats.pm:25-30. -/
def stddev (r : Rat → Rat) (s : St) : Dev :=
  match mean r s with
  | none => .nan
  | some m => if r (r (s.sumsq / r s.count) - r (m * m)) < 0 then .died else .root (r (r (s.sumsq / r s.count) - r (m * m)))

/-- Adding values in turn. Made of the parts of `Stats.pm:12-18`. -/
def addAll (r : Rat → Rat) (s : St) (vs : List Rat) : St := vs.foldl (add r) s

end Verif.Stats.Perl
