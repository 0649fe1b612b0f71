import Verif.Deptool.Deps

/-! # deptool code-review and review-status: what git says about a revision

Model of src/deptool.in: the git interface's parseRevisionData (5216-5263) and the checks of codeReview (2656-2685). The output of `git log --format=raw` is a list of lines without their newlines (line 5219). The date is kept as the number of seconds; `gmtime` is not modelled. -/

namespace Verif.DepVC.Revision

open Verif.Deptool.Deps (Text isWord cutLast)

/-- `/^(\w+) (.+)$/`, line 5224. -/
def parseField (l : Text) : Option (Text × Text) :=
  match l.takeWhile isWord, l.dropWhile isWord with
  | k :: ks, ' ' :: v :: vs => some (k :: ks, v :: vs)
  | _, _ => none

/-- `while ($_ = shift @output)`, lines 5221-5222: up to a line that perl takes for false, which is left out. -/
def splitHead : List Text → List Text × List Text
  | [] => ([], [])
  | l :: ls => if l = [] ∨ l = ['0'] then ([], ls) else (l :: (splitHead ls).1, (splitHead ls).2)

/-- All fields or none: line 5224. -/
def parseFields : List Text → Option (List (Text × Text))
  | [] => some []
  | l :: ls =>
    match parseField l with
    | none => none
    | some f => (parseFields ls).map (f :: ·)

/-- `$info{...}`: the values of a field. Used in the model of `deptool.in:5240-5262` (`assemble`). -/
def values (k : Text) (fs : List (Text × Text)) : List Text := (fs.filter fun f => decide (f.1 = k)).map (·.2)

/-- `pop(@output) if $output[@output-1] =~ /^$/o`, line 5235. -/
def dropBlank (ls : List Text) : List Text := if ls.getLast? = some [] then ls.dropLast else ls

/-- Used in the model of `deptool.in:5236` (`flush`). -/
def isSpace (c : Char) : Bool := c == ' ' || c == '\t' || c == '\n' || c == '\r' || c == '\x0c' || c == '\x0b'

/-- `/^\S/`, line 5236. -/
def flush (l : Text) : Bool :=
  match l with
  | [] => false
  | c :: _ => !isSpace c

/-- `s/^    //`, line 5238. -/
def unindent : Text → Text
  | ' ' :: ' ' :: ' ' :: ' ' :: t => t
  | t => t

/-- Used in the model of `deptool.in:5249` (`parseAuthor`). -/
def isZone (t : Text) : Bool :=
  match t with
  | s :: ds => (s == '+' || s == '-') && decide (ds.length = 4) && ds.all Char.isDigit
  | [] => false

/-- `/^(.+) (\d+) [\+\-]\d{4}$/`, line 5249. -/
def parseAuthor (t : Text) : Option (Text × Text) :=
  match cutLast ' ' t with
  | none => none
  | some (a, z) =>
    if isZone z then
      match cutLast ' ' a with
      | none => none
      | some (n, d) => if n ≠ [] ∧ d ≠ [] ∧ d.all Char.isDigit = true then some (n, d) else none
    else none

/-- Used in the model of `deptool.in:5240-5262` (`assemble`). -/
structure Info where
  revision : Text
  author : Text
  /-- seconds since 1970 -/
  date : Text
  /-- `ancestor`, or `ancestor1` and `ancestor2` -/
  ancestors : List Text
  changelog : Text
deriving DecidableEq

/-- Used in the model of `deptool.in:5240-5262` (`assemble`). -/
def kCommit : Text := ['c', 'o', 'm', 'm', 'i', 't']
/-- Used in the model of `deptool.in:5240-5262` (`assemble`). -/
def kAuthor : Text := ['a', 'u', 't', 'h', 'o', 'r']
/-- Used in the model of `deptool.in:5240-5262` (`assemble`). -/
def kParent : Text := ['p', 'a', 'r', 'e', 'n', 't']

/-- Lines 5240-5262, from the fields and the text. -/
def assemble (fs : List (Text × Text)) (body : List Text) : Option Info :=
  match values kCommit fs, values kAuthor fs with
  | [c], [a] => (parseAuthor a).map fun x => { revision := c, author := x.1, date := x.2, ancestors := (values kParent fs).take 2, changelog := (body.map unindent).flatten }
  | _, _ => none

/-- `parseRevisionData`, lines 5216-5263; `none`: it dies. -/
def parse (out : List Text) : Option Info :=
  match parseFields (splitHead out).1 with
  | none => none
  | some fs =>
    let body := dropBlank (splitHead out).2
    if body.any flush then none else assemble fs body

/-- Whether `codeReview` takes the revision, lines 2659-2678: `ancestor` has to be there. A list of ancestors, which the question at line 2661 is about, is never made by the git interface. -/
def reviewable (i : Info) : Bool := decide (i.ancestors.length = 1)

end Verif.DepVC.Revision
