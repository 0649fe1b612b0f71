import Verif.Deptool.Deps

/-! # deptool test: what ctest prints

Model of src/deptool.in: dbpGetCTestInfo (1316-1342), dbpReadCTestOutput (1390-1409) and the end of dbpRunIndividualTest (1411-1452). The output of `ctest -N` is a list of lines without their newlines; the log of one test is a text. The files that are written for each section, and their renaming, are left out. -/

namespace Verif.DepVC.Ctest

open Verif.Deptool.Deps (Text)

/-- Used in the model of `deptool.in:1335` (`newLine`). -/
def isSpace (c : Char) : Bool := c == ' ' || c == '\t' || c == '\n' || c == '\r' || c == '\x0c' || c == '\x0b'

/-- What is left after a beginning. Used in the model of `deptool.in:1335` (`newLine`). -/
def strip (p t : Text) : Option Text := if p.isPrefixOf t then some (t.drop p.length) else none

/-- Used in the model of `deptool.in:1335` (`newLine`). -/
def number (t : Text) : Nat := t.foldl (fun n c => 10 * n + (c.toNat - 48)) 0

/-- `/^  Test\s+\#(\d+): (.+)$/`, line 1335. -/
def newLine (l : Text) : Option (Nat × Text) :=
  match strip [' ', ' ', 'T', 'e', 's', 't'] l with
  | none => none
  | some t =>
    match t.takeWhile isSpace, t.dropWhile isSpace with
    | _ :: _, '#' :: u =>
      match u.takeWhile Char.isDigit, u.dropWhile Char.isDigit with
      | d :: ds, ':' :: ' ' :: c :: cs => some (number (d :: ds), c :: cs)
      | _, _ => none
    | _, _ => none

/-- `m!^\s*\d+/\s*(\d+)\s* Testing (\S+)\s*$!`, line 1334. -/
def oldLine (l : Text) : Option (Nat × Text) :=
  let t := l.dropWhile isSpace
  match t.takeWhile Char.isDigit, t.dropWhile Char.isDigit with
  | _ :: _, '/' :: u =>
    let v := u.dropWhile isSpace
    match v.takeWhile Char.isDigit, v.dropWhile Char.isDigit with
    | d :: ds, w =>
      -- the last of the blanks is the space before the word
      let blanks := w.takeWhile isSpace
      match strip ['T', 'e', 's', 't', 'i', 'n', 'g', ' '] (w.dropWhile isSpace) with
      | none => none
      | some x =>
        let name := x.takeWhile fun c => !isSpace c
        if blanks.getLast? = some ' ' ∧ name ≠ [] ∧ (x.dropWhile fun c => !isSpace c).all isSpace = true then some (number (d :: ds), name) else none
    | [], _ => none
  | _, _ => none

/-- Used in the model of `deptool.in:1325-1340` (`listing`). -/
def testLine (l : Text) : Option (Nat × Text) := (oldLine l).or (newLine l)

/-- Used in the model of `deptool.in:1325-1340` (`totalLine`). -/
def totalText : Text := ['T', 'o', 't', 'a', 'l', ' ', 'T', 'e', 's', 't', 's', ':', ' ']

/-- `/^Total Tests: (\d+)$/` Used in the model of `deptool.in:1325-1340` (`listing`). -/
def totalLine (l : Text) : Option Nat :=
  match strip totalText l with
  | none => none
  | some t => if t ≠ [] ∧ t.all Char.isDigit = true then some (number t) else none

/-- Lines 1325-1340; `max` is `$maxtest`. -/
def listing : List Text → Nat → List Text → Option (List Text)
  | [], max, acc => if acc.length = max then some acc else none
  | l :: ls, max, acc =>
    if l.all isSpace then listing ls max acc
    else
      match totalLine l with
      | some n => if max = n ∧ ls = [] ∧ acc.length = max then some acc else none
      | none =>
        match testLine l with
        | none => none
        | some (n, name) => if n < max then none else listing ls n (acc ++ [name])

/-- Used in the model of `deptool.in:1316-1342` (`getCTestInfo`). -/
def startText : Text := ['S', 't', 'a', 'r', 't', ' ', 'p', 'r', 'o', 'c', 'e', 's', 's', 'i', 'n', 'g', ' ', 't', 'e', 's', 't', 's']
/-- Used in the model of `deptool.in:1316-1342` (`projectLine`). -/
def projectText : Text := ['T', 'e', 's', 't', ' ', 'p', 'r', 'o', 'j', 'e', 'c', 't', ' ']

/-- `/^Test project \S+$/` Used in the model of `deptool.in:1316-1342` (`getCTestInfo`). -/
def projectLine (l : Text) : Bool :=
  match strip projectText l with
  | none => false
  | some t => !t.isEmpty && t.all fun c => !isSpace c

/-- `dbpGetCTestInfo`, lines 1316-1342. -/
def getCTestInfo (out : List Text) : Option (List Text) :=
  let out1 := match out with | l :: ls => if l = startText then ls else l :: ls | [] => []
  match out1 with
  | [] => none
  | l :: ls => if projectLine l then listing ls 0 [] else none

/-! ## The log of a test -/

/-- Used in the model of `deptool.in:1397` (`marker`). -/
def isUp (c : Char) : Bool := (65 ≤ c.toNat && c.toNat ≤ 90) || c == '_'

/-- The lines of a file, with their newlines. Used in the model of `deptool.in:1390-1409` (`readLog`). -/
def rawLines : Text → List Text
  | [] => []
  | c :: t =>
    if c = '\n' then ['\n'] :: rawLines t
    else
      match rawLines t with
      | [] => [[c]]
      | l :: ls => (c :: l) :: ls

/-- `s/\[([A-Z_]+)\] \n$//`, line 1397: what is before and the name. -/
def marker (l : Text) : Option (Text × Text) :=
  match l.reverse with
  | '\n' :: ' ' :: ']' :: r =>
    match r.takeWhile isUp, r.dropWhile isUp with
    | c :: n, '[' :: b => some (b.reverse, (c :: n).reverse)
    | _, _ => none
  | _ => none

/-- Used in the model of `deptool.in:1396-1404` (`readLine`). -/
structure Read where
  cur : Text
  /-- the text of each section -/
  text : Text → Text

/-- Used in the model of `deptool.in:1396-1404` (`readLine`). -/
def add (f : Text → Text) (k t : Text) : Text → Text := fun j => if j = k then f j ++ t else f j

/-- Lines 1396-1404. -/
def readLine (s : Read) (l : Text) : Read :=
  match marker l with
  | some (b, n) => { cur := n, text := add s.text s.cur b }
  | none => { s with text := add s.text s.cur l }

/-- Used in the model of `deptool.in:1390-1409` (`readCTestOutput`). -/
def unknownName : Text := ['u', 'n', 'k', 'n', 'o', 'w', 'n']

/-- Used in the model of `deptool.in:1390-1409` (`readCTestOutput`). -/
def readLog (log : Text) : Read := (rawLines log).foldl readLine { cur := unknownName, text := fun _ => [] }

/-- `dbpReadCTestOutput`, lines 1390-1409. -/
def readCTestOutput (log : Text) : Option (Text → Text) :=
  let r := readLog log
  if r.cur = unknownName then none else some r.text

/-- Used in the model of `deptool.in:1430-1452` (`verdict`). -/
inductive Verdict where
  | passed | failed
  /-- the program dies, and so does the whole run of tests -/
  | die
deriving DecidableEq

/-- All ends of a text. Used in the model of `deptool.in:1430-1452` (`saysPassed`). -/
def tails : Text → List Text
  | [] => [[]]
  | c :: t => (c :: t) :: tails t

/-- `/Passed/` Used in the model of `deptool.in:1430-1452` (`verdict`). -/
def saysPassed (t : Text) : Bool := (tails t).any fun u => ['P', 'a', 's', 's', 'e', 'd'].isPrefixOf u
/-- Used in the model of `deptool.in:1430-1452` (`verdict`). -/
def handlerName : Text := ['H', 'A', 'N', 'D', 'L', 'E', 'R', '_', 'O', 'U', 'T', 'P', 'U', 'T']

/-- Lines 1430-1452: `ok` is whether ctest exits with 0. -/
def verdict (ok : Bool) (log : Text) : Verdict :=
  match readCTestOutput log with
  | none => .die
  | some text => if saysPassed (text handlerName) = ok then (if ok then .passed else .failed) else .die

end Verif.DepVC.Ctest
