import Verif.DepVC.Ctest

/-! # deptool with monotone: the commands that are run

Model of src/deptool.in: mtnOp (2153-2176), readMtnOptions (4618-4632), and the choice of the command for a log by the version of monotone (rawRevisionInfo, 4537-4561, and parseNonMergeRevisions, 4700-4715). The options file is a list of lines without their newlines; a command is the list of its words (for the log commands the options that depend on the version). -/

namespace Verif.DepVC.MtnOp

open Verif.Deptool.Deps (Text)
open Verif.DepVC.Ctest (isSpace strip)

/-- `/^\s*key \"(.+)\"$/`, lines 4626 and 4627. -/
def optLine (key l : Text) : Option Text :=
  match strip (key ++ [' ', '"']) (l.dropWhile isSpace) with
  | some r => if r.getLast? = some '"' ∧ r.dropLast ≠ [] then some r.dropLast else none
  | none => none

def kBranch : Text := ['b', 'r', 'a', 'n', 'c', 'h']
def kDatabase : Text := ['d', 'a', 't', 'a', 'b', 'a', 's', 'e']

/-- The options read. Used in the model of `deptool.in:4624-4628` (`readOptions`). -/
structure Opts where
  branch : Option Text
  database : Option Text
deriving DecidableEq

/-- The loop of `readMtnOptions`, lines 4625-4628: a later line replaces an earlier one. -/
def readOptions : List Text → Opts → Opts
  | [], o => o
  | l :: ls, o => readOptions ls ⟨(optLine kBranch l).or o.branch, (optLine kDatabase l).or o.database⟩

/-- What is behind the last slash, and what is before it if there is one. Used in the model of `deptool.in:2167` (`syncBranch`). -/
def lastSlash (t : Text) : Option Text × Text :=
  let r := t.reverse.dropWhile (· ≠ '/')
  (match r with
   | _ :: p => some p.reverse
   | [] => none, (t.reverse.takeWhile (· ≠ '/')).reverse)

/-- `s!^(.*/.*)/.*$!$1!`, line 2167. -/
def syncBranch (b : Text) : Text :=
  match (lastSlash b).1 with
  | some p => if p.contains '/' then p else b
  | none => b

/-- Lines 2168-2172. Simplified: `basename` also drops slashes at the end of the database name. -/
def serverFor (server database : Text) : Text :=
  if server.take 4 = ['s', 's', 'h', ':'] then server ++ (lastSlash database).2 else server

def tMtn : Text := ['m', 't', 'n']
def tD : Text := ['-', 'd']

/-- `mtnOp`, lines 2153-2176: the two commands; `none` if it dies. -/
def mtnOp (op server : Text) (options : List Text) : Option (List (List Text)) :=
  if [['p', 'u', 'l', 'l'], ['p', 'u', 's', 'h'], ['s', 'y', 'n', 'c']].contains op then
    match readOptions options ⟨none, none⟩ with
    | ⟨some b, some d⟩ =>
      some [[tMtn, tD, d, op, serverFor server d, syncBranch b ++ ['*']], [tMtn, tD, d, ['h', 'e', 'a', 'd', 's'], ['-', 'b'], b]]
    | _ => none
  else none

/-- The forms of the log commands. Used in the model of `deptool.in:4550-4557` and `4707-4713` (`logForm`). -/
inductive Form where
  | plain | noGraph | noFormat
deriving DecidableEq, Repr

/-- Lines 4550-4557 and 4707-4713: `$minor <= 0.28` compares the whole number behind the dot with a fraction. -/
def logForm (major minor : Nat) : Form :=
  if major = 0 ∧ minor * 100 ≤ 28 then .plain else if major = 0 ∧ minor < 45 then .noGraph else .noFormat

end Verif.DepVC.MtnOp
