import Verif.Deptool.Deps

/-! # check-changelogs: is the version in the changelogs?

Model of dist/check-changelogs.sh. Files are lists of lines, `none` if they are not there. The version is a regular expression for grep; versions are digits and points here, so that the point, which stands for any character, is the only one that means something. -/

namespace Verif.Dist.Changelogs

open Verif.Deptool.Deps (Text)

/-- Does the text begin with a match? Used in the model of `check-changelogs.sh:13-16` (`grep`). -/
def fits : Text → Text → Bool
  | [], _ => true
  | _ :: _, [] => false
  | p :: ps, c :: cs => (p == '.' || p == c) && fits ps cs

/-- `grep` on one line. Used in the model of `check-changelogs.sh:13-16` (`check`). -/
def grep (v : Text) : Text → Bool
  | [] => fits v []
  | c :: cs => fits v (c :: cs) || grep v cs

/-- The files of one project. Used in the model of `check-changelogs.sh:6-7` (`check`). -/
structure Project where
  changelog : Option (List Text)
  spec : Option (List Text)

/-- The lines for one project: 8-9, 13-14 for Lintel and 10-11, 15-16 for DataSeries. -/
def checkOne (v : Text) (p : Project) : Bool :=
  match p.changelog, p.spec with
  | some c, some s => ((c.take 1).filter (grep v)).length == 1 && (s.filter (grep v)).length == 1
  | _, _ => false

/-- `check-changelogs.sh:1-16`; with `set -e`, the first test that fails ends it. -/
def check (v : Text) (lintel dataseries : Project) : Bool := checkOne v lintel && checkOne v dataseries

end Verif.Dist.Changelogs
