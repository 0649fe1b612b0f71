/-! # deptool code-review: the marks of reviewed revisions

Model of src/deptool.in: the `reviewed` command of kdiffDirs (2865-2867), codeReviewMarkReviewed (2913-2929), the git interface's markReviewed (5291-5303) and getReviews (5331-5352), and how reviewStatus shows a mark (3182-3190). The clock is a parameter; so is the address in `~/.gitconfig`, empty if there is none (undef in the string). -/

namespace Verif.DepVC.Marks

/-- Used in the model of `deptool.in:2865` (`reviewedCmd`). -/
abbrev Text := List Char

/-- `\s`. Used in the model of `deptool.in:2865` (`reviewedCmd`). -/
def isSpace (c : Char) : Bool := c == ' ' || c == '\t' || c == '\n' || c == '\r' || c == '\x0c' || c == '\x0b'

/-- Part of the model of `deptool.in:2865-5352`. -/
def isHex (c : Char) : Bool := c.isDigit || (97 ≤ c.toNat && c.toNat ≤ 102)

/-- `/^[a-f0-9]{40}/` -/
def isRev (t : Text) : Bool := decide (t.length = 40) && t.all isHex

/-- `/^reviewed\s*(.*)$/` on a line that has been chomped, line 2865. -/
def reviewedCmd (t : Text) : Option Text :=
  if ['r', 'e', 'v', 'i', 'e', 'w', 'e', 'd'].isPrefixOf t then some ((t.drop 8).dropWhile isSpace) else none

/-- `codeReviewMarkReviewed`, lines 2916-2927: `$comment ||= ''` loses what perl takes for false. -/
def stored (time comment : Text) : Text :=
  let c := if comment = [] ∨ comment = ['0'] then [] else comment
  if c = [] then time else time ++ ':' :: ' ' :: c

/-- One line, line 5300. -/
def markLine (email rev comment : Text) : Text := rev ++ '\t' :: (email ++ '\t' :: (comment ++ ['\n']))

/-- Used in the model of `deptool.in:5291-5303` (`Mark.text`). -/
structure Mark where
  email : Text
  revs : List Text
  time : Text
  comment : Text

/-- `markReviewed`, lines 5291-5303: what is appended to the file. -/
def Mark.text (m : Mark) : Text := m.revs.flatMap fun r => markLine m.email r (stored m.time m.comment)

/-- The lines of a file, chomped. Used in the model of `deptool.in:5331-5352` (`getReviews`). -/
def lines : Text → List Text
  | [] => []
  | c :: t =>
    if c = '\n' then [] :: lines t
    else
      match lines t with
      | [] => [[c]]
      | l :: ls => (c :: l) :: ls

/-- Up to a tab with something after it. Used in the model of `deptool.in:5343` (`parseLine`). -/
def cutTab : Text → Option (Text × Text)
  | [] => none
  | c :: t => if c = '\t' ∧ t ≠ [] then some ([], t) else (cutTab t).map fun x => (c :: x.1, x.2)

/-- `/^([a-f0-9]{40})\t(.+?)\t(.+)$/`, line 5343. -/
def parseLine (l : Text) : Option (Text × Text × Text) :=
  if isRev (l.take 40) then
    match l.drop 40 with
    | '\t' :: c :: t => (cutTab t).map fun x => (l.take 40, c :: x.1, x.2)
    | _ => none
  else none

/-- All lines or none. Used in the model of `deptool.in:5331-5352` (`getReviews`). -/
def readAll : List Text → Option (List (Text × Text × Text))
  | [] => some []
  | l :: ls =>
    match parseLine l with
    | none => none
    | some x => (readAll ls).map (x :: ·)

/-- `getReviews`, lines 5331-5352; `none`: it dies. -/
def getReviews (file rev : Text) : Option (List (Text × Text)) :=
  if isRev rev then (readAll (lines file)).map fun xs => (xs.filter fun x => decide (x.1 = rev)).map (·.2) else none

/-- `\d{4}-\d{2}-\d{2}T\d{2}:\d{2}:\d{2}`: a digit for every `0`. Used in the model of `deptool.in:3185-3187` (`shown`). -/
def shape : Text := ['0', '0', '0', '0', '-', '0', '0', '-', '0', '0', 'T', '0', '0', ':', '0', '0', ':', '0', '0']

/-- Used in the model of `deptool.in:3185-3187` (`shown`). -/
def matchShape : Text → Text → Bool
  | [], [] => true
  | p :: ps, c :: cs => (if p = '0' then c.isDigit else decide (c = p)) && matchShape ps cs
  | _, _ => false

/-- `s/^(...)(: )?//`, lines 3185-3187: the date, if there is one, and the rest. -/
def shown (t : Text) : Option Text × Text :=
  if matchShape shape (t.take 19) then
    (some (t.take 19), match t.drop 19 with | ':' :: ' ' :: r => r | r => r)
  else (none, t)

end Verif.DepVC.Marks
