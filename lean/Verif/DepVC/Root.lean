import Verif.Deptool.CMake

/-! # deptool: the top of a source tree

Model of src/deptool.in: rootSrcDir (3515-3524), which nearly all commands start from. Names contain no newline (`$` would match before one). -/

namespace Verif.DepVC.Root

open Verif.Deptool.Deps (Text)
open Verif.Deptool.CMake (Trees Place srcDir tConfig)

/-- `s!/[^/]+$!!o`, line 3519: nothing happens when there is no match. -/
def up (p : Text) : Text :=
  match p.reverse.takeWhile (· ≠ '/'), p.reverse.dropWhile (· ≠ '/') with
  | _ :: _, _ :: r => r.reverse
  | _, _ => p

/-- What comes of the loop. Used in the model of `deptool.in:3515-3524` (`rootSrcDir`). -/
inductive Out where
  | found (p : Text)
  | die
  /-- not done after the given number of rounds -/
  | running
deriving DecidableEq, Repr

/-- Lines 3518-3522, for so many rounds. -/
def loop (isFile : Text → Bool) : Nat → Text → Out
  | 0, _ => .running
  | n + 1, p => if isFile (p ++ tConfig) then .found p else if up p = [] then .die else loop isFile n (up p)

/-- `rootSrcDir`, lines 3515-3524. -/
def rootSrcDir (T : Trees) (w : Place) (n : Nat) : Out :=
  match srcDir T w with
  | none => .die
  | some (p, _) => loop w.isFile n p

end Verif.DepVC.Root
