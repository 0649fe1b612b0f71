import Verif.Deptool.Deps

/-! # deptool review-status: which revisions are listed

Model of src/deptool.in: the arguments of reviewStatus (3127-3166), selectRevisions (3199-3240) and the git interface's parseNonMergeRevisions (5354-5372). The expression after `who=` is a predicate on authors. -/

namespace Verif.DepVC.Select

open Verif.Deptool.Deps (Text cutLast)

/-- Used in the model of `deptool.in:3213` (`parseSel`). -/
def isSpace (c : Char) : Bool := c == ' ' || c == '\t' || c == '\n' || c == '\r' || c == '\x0c' || c == '\x0b'

/-- perl's `lt`. Used in the model of `deptool.in:3230-3236` (`wanted`). -/
def lt : Text → Text → Bool
  | [], [] => false
  | [], _ :: _ => true
  | _ :: _, [] => false
  | a :: as, b :: bs => decide (a.toNat < b.toNat) || (decide (a = b) && lt as bs)

/-- Used in the model of `deptool.in:5354-5372` (`nonMerges`). -/
structure Rev where
  id : Text
  author : Text
  /-- as sprintf makes it at line 5253: YYYY-MM-DD hh:mm:ss -/
  date : Text
  merge : Bool
  reviews : List Text

/-- Used in the model of `deptool.in:3214-3218` (`setSel`). -/
structure Selectors where
  who : Option Text
  minDate : Option Text
  maxDate : Option Text
  branch : Option Text
  repo : Option Text

/-- Made of the parts of `deptool.in:3214-3218`. -/
def noSelectors : Selectors := { who := none, minDate := none, maxDate := none, branch := none, repo := none }

/-- `/^(\S+)=(\S+)$/`, line 3213: the first part is greedy. -/
def parseSel (t : Text) : Option (Text × Text) :=
  match cutLast '=' t with
  | some (a, b) => if a ≠ [] ∧ b ≠ [] ∧ t.any isSpace = false then some (a, b) else none
  | none => none

/-- Lines 3214-3218: an unknown name, or one that has a value already, is refused. -/
def setSel (s : Selectors) (k v : Text) : Option Selectors :=
  if k = "who".toList then (if s.who = none then some { s with who := some v } else none)
  else if k = "min-date".toList then (if s.minDate = none then some { s with minDate := some v } else none)
  else if k = "max-date".toList then (if s.maxDate = none then some { s with maxDate := some v } else none)
  else if k = "branch".toList then (if s.branch = none then some { s with branch := some v } else none)
  else if k = "repo".toList then (if s.repo = none then some { s with repo := some v } else none)
  else none

/-- The loop at lines 3212-3222. -/
def parseSels : List Text → Selectors → Option Selectors
  | [], s => some s
  | t :: ts, s =>
    match parseSel t with
    | none => none
    | some (k, v) =>
      match setSel s k v with
      | none => none
      | some s' => parseSels ts s'

/-- `parseNonMergeRevisions`, lines 5354-5372: `git log --no-merges`, whatever the branch is. -/
def nonMerges (head : List Rev) (_branch : Option Text) : List Rev := head.filter fun r => !r.merge

/-- Lines 3230-3236. -/
def wanted (hit : Text → Text → Bool) (s : Selectors) (r : Rev) : Bool :=
  (match s.who with | some w => hit w r.author | none => true) &&
  (match s.minDate with | some d => !lt r.date d | none => true) &&
  (match s.maxDate with | some d => !lt d r.date | none => true)

/-- `selectRevisions`, lines 3199-3240, with the log of the current branch. -/
def select (hit : Text → Text → Bool) (head : List Rev) (s : Selectors) : List Rev := (nonMerges head s.branch).filter (wanted hit s)

/-- What `reviewStatus` prints of these, line 3163. -/
def printed (unreviewed : Bool) (rs : List Rev) : List Rev := rs.filter fun r => !unreviewed || r.reviews.isEmpty

end Verif.DepVC.Select
