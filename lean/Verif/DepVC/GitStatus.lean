import Verif.Deptool.Deps

/-! # deptool: what git says about the work directory

Model of src/deptool.in: getWorkdirStatus (4960-4969), listUnknownFiles (4971-4978) and haveUncommittedChanges (4980-4985) of the git interface. The output of `git status --porcelain -z` is a text; the command itself is left out, and so is the case that it fails (line 4967). -/

namespace Verif.DepVC.GitStatus

open Verif.Deptool.Deps (Text)

def nul : Char := '\x00'

/-- The fields between the zeros, all of them. Used in the model of `deptool.in:4968` (`records`). -/
def fields : Text → List Text
  | [] => [[]]
  | c :: t =>
    if c = nul then [] :: fields t
    else
      match fields t with
      | [] => [[c]]
      | f :: fs => (c :: f) :: fs

/-- Perl's `split`, line 4968: empty fields at the end are left out, and the empty text has none. -/
def records (t : Text) : List Text := ((fields t).reverse.dropWhile fun f => f.isEmpty).reverse

/-- `s/^\?\? //`, line 4975. -/
def pruned : Text → Option Text
  | '?' :: '?' :: ' ' :: n => some n
  | _ => none

/-- `listUnknownFiles` (lines 4971-4978). -/
def listUnknown (out : Text) : List Text := (records out).filterMap pruned

/-- `haveUncommittedChanges` (lines 4980-4985), from the output for `--untracked-files=no`. -/
def haveUncommitted (out : Text) : Bool := !(records out).isEmpty

end Verif.DepVC.GitStatus
