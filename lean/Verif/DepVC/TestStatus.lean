import Verif.DepVC.Ctest

/-! # deptool test: the status of a test

Model of src/deptool.in: dbpGetTestStatus (1344-1387), which reads the section `handler_output` of the log of one test. The file is a list of lines without their newlines. Lines that do not exist fail the patterns, except the one for an empty line, behind which another line is wanted. -/

namespace Verif.DepVC.TestStatus

open Verif.Deptool.Deps (Text isWord)
open Verif.DepVC.Ctest (isSpace strip number projectLine)

/-- Perl's `\S`. Used in the model of `deptool.in:1361` (`lastWord`). -/
def isSolid (c : Char) : Bool := !isSpace c

/-- `^\s*(\d+)`: the digits and what is behind them. Used in the model of `deptool.in:1355-1372` (`countLine`, `oldStatus`, `newStatus`). -/
def leading (t : Text) : Option (Text × Text) :=
  let u := t.dropWhile isSpace
  if u.takeWhile Char.isDigit = [] then none else some (u.takeWhile Char.isDigit, u.dropWhile Char.isDigit)

/-- `m!^\s*(\d+)/$!`, lines 1355 and 1369. -/
def countLine (l : Text) : Option Text :=
  match leading l with
  | some (d, ['/']) => some d
  | _ => none

/-- `m!^\s+Start (\d+): !`, line 1363. -/
def startLine (l : Text) : Option Text :=
  if l.takeWhile isSpace = [] then none
  else
    match strip ['S', 't', 'a', 'r', 't', ' '] (l.dropWhile isSpace) with
    | none => none
    | some t =>
      if t.takeWhile Char.isDigit = [] then none
      else
        match strip [':', ' '] (t.dropWhile Char.isDigit) with
        | none => none
        | some _ => some (t.takeWhile Char.isDigit)

/-- `(.*?)\s+(\S+)\s*$`, the end of the pattern of line 1360. -/
def lastWord (t : Text) : Option (Text × Text) :=
  let r := t.reverse.dropWhile isSpace
  let b := r.dropWhile isSolid
  if r.takeWhile isSolid = [] ∨ b = [] then none
  else some ((b.dropWhile isSpace).reverse, (r.takeWhile isSolid).reverse)

/-- `m!^\s*\d+ Testing (.*?)\s+(\S+)\s*$!`, line 1360. -/
def oldStatus (l : Text) : Option (Text × Text) :=
  match leading l with
  | none => none
  | some (_, r) =>
    match strip [' ', 'T', 'e', 's', 't', 'i', 'n', 'g', ' '] r with
    | none => none
    | some t => lastWord t

/-- `\s+.+\s(\w+)\s+\d+\.\d+ sec$`, the end of the pattern of line 1372, read from the end. -/
def timed (t : Text) : Option Text :=
  match strip ['c', 'e', 's', ' '] t.reverse with
  | none => none
  | some r1 =>
    if r1.takeWhile Char.isDigit = [] then none
    else
      match r1.dropWhile Char.isDigit with
      | '.' :: r2 =>
        if r2.takeWhile Char.isDigit = [] ∨ (r2.dropWhile Char.isDigit).takeWhile isSpace = [] then none
        else
          let r3 := (r2.dropWhile Char.isDigit).dropWhile isSpace
          if r3.takeWhile isWord = [] then none
          else
            match r3.dropWhile isWord with
            | c :: fill => if isSpace c = true ∧ 2 ≤ fill.length ∧ (fill.getLast?.any isSpace) = true then some (r3.takeWhile isWord).reverse else none
            | [] => none
      | _ => none

/-- `m!^\s*\d+ Test #\d+: (\S+)\s+.+\s(\w+)\s+\d+\.\d+ sec$!`, line 1372. -/
def newStatus (l : Text) : Option (Text × Text) :=
  match leading l with
  | none => none
  | some (_, r) =>
    match strip [' ', 'T', 'e', 's', 't', ' ', '#'] r with
    | none => none
    | some t =>
      if t.takeWhile Char.isDigit = [] then none
      else
        match strip [':', ' '] (t.dropWhile Char.isDigit) with
        | none => none
        | some u =>
          if u.takeWhile isSolid = [] then none
          else
            match timed (u.dropWhile isSolid) with
            | none => none
            | some s => some (u.takeWhile isSolid, s)

/-- What it returns: the text to be printed, the name of the test and its status. -/
structure Status where
  text : Text
  name : Text
  status : Text
deriving DecidableEq, Repr

/-- `dbpGetTestStatus` (lines 1344-1387); `none` if it dies. In the old format the newline of the last line has been taken away (line 1358). -/
def testStatus (num : Nat) : List Text → Option Status
  | l1 :: l2 :: l3 :: rest =>
    if projectLine l1 = true ∧ l2 = [] then
      match countLine l3 with
      | some d =>
        match rest with
        | l4 :: _ =>
          match oldStatus l4 with
          | some (n, s) => if number d = num then some ⟨l3 ++ '\n' :: l4, n, s⟩ else none
          | none => none
        | [] => none
      | none =>
        match startLine l3 with
        | some d =>
          match rest with
          | l4 :: l5 :: l6 :: _ =>
            if l4 = [] ∧ (countLine l5).isSome = true then
              match newStatus l6 with
              | some (n, s) => if number d = num then some ⟨l3 ++ '\n' :: l6 ++ ['\n'], n, s⟩ else none
              | none => none
            else none
          | _ => none
        | none => none
    else none
  | _ => none

end Verif.DepVC.TestStatus
