import Verif.Deptool.Deps

/-! # deptool: the remotes of a git repository

Model of src/deptool.in: getAllRemotes (5087-5115), depCheckoutGitGetRemoteFetch (1061-1070) and the addresses a checkout made from the local copy gets (1048-1056). The lines of `git remote -v` are texts without their newline. -/

namespace Verif.DepVC.Remotes

open Verif.Deptool.Deps (Text isWord)

/-- Perl's `\s`. Used in the model of `deptool.in:5100` (`parseLine`) and `1067` (`fetchLine`). -/
def isSp (c : Char) : Bool := c == ' ' || c == '\t' || c == '\n' || c == '\r' || c == '\x0c' || c == '\x0b'

/-- Perl's `\S`. Used in the model of `deptool.in:5100` (`parseLine`) and `1067` (`fetchLine`). -/
def isNs (c : Char) : Bool := !isSp c

def tFetch : Text := ['f', 'e', 't', 'c', 'h']
def tPush : Text := ['p', 'u', 's', 'h']
def tOrigin : Text := ['o', 'r', 'i', 'g', 'i', 'n']

/-- `\((\w+)\)$`, the end of the pattern of line 5100. -/
def mode : Text → Option Text
  | '(' :: m => if m.getLast? = some ')' ∧ m.dropLast ≠ [] ∧ m.dropLast.all isWord = true then some m.dropLast else none
  | _ => none

/-- `/^(\S+)\s+(\S+)\s+\((\w+)\)$/`, line 5100. -/
def parseLine (t : Text) : Option (Text × Text × Text) :=
  let r1 := t.dropWhile isNs
  let r2 := (r1.dropWhile isSp).dropWhile isNs
  if t.takeWhile isNs ≠ [] ∧ r1 ≠ [] ∧ (r1.dropWhile isSp).takeWhile isNs ≠ [] ∧ r2 ≠ [] then
    (mode (r2.dropWhile isSp)).map fun m => (t.takeWhile isNs, (r1.dropWhile isSp).takeWhile isNs, m)
  else none

/-- `%remote_to_info`: the name, the address to fetch from, the address to push to. -/
abbrev Table := List (Text × Text × Option Text)

/-- Is the name in the table? Used in the model of `deptool.in:5104-5108` (`addLine`). -/
def has (t : Table) (n : Text) : Bool := t.any fun e => e.1 = n

/-- Lines 5103-5111; `none` if it dies. -/
def addLine (t : Table) (n u m : Text) : Option Table :=
  if m = tFetch then
    if has t n then none else some (t ++ [(n, u, none)])
  else if m = tPush then
    if has t n then some (t.map fun e => if e.1 = n then (e.1, e.2.1, some u) else e) else none
  else none

/-- The loop, lines 5098-5113. -/
def readAll : List Text → Table → Option Table
  | [], t => some t
  | l :: ls, t =>
    match parseLine l with
    | none => none
    | some (n, u, m) =>
      match addLine t n u m with
      | none => none
      | some t' => readAll ls t'

/-- `getAllRemotes` (lines 5087-5115). -/
def getAllRemotes (ls : List Text) : Option Table := readAll ls []

/-- Take a prefix away. Used in the model of `deptool.in:1067` (`fetchLine`). -/
def stripPre : Text → Text → Option Text
  | [], t => some t
  | c :: p, d :: t => if c = d then stripPre p t else none
  | _ :: _, [] => none

/-- `/^origin\s+(\S+)\s+\(fetch\)/`, line 1067. -/
def fetchLine (t : Text) : Option Text :=
  match stripPre tOrigin t with
  | none => none
  | some r1 =>
    let u := (r1.dropWhile isSp).takeWhile isNs
    let r2 := (r1.dropWhile isSp).dropWhile isNs
    if (r1.head?.any isSp) = true ∧ u ≠ [] ∧ r2 ≠ [] then (stripPre ('(' :: tFetch ++ [')']) (r2.dropWhile isSp)).map fun _ => u else none

/-- `depCheckoutGitGetRemoteFetch` (lines 1061-1070): the first line that matches. -/
def remoteFetch (ls : List Text) : Option Text := ls.findSome? fetchLine

/-- The addresses of the remote `origin` of a new checkout, from the lines of the local copy (lines 1048-1055); `none` if it dies. -/
def checkoutOrigin (ls : List Text) : Option (Text × Option Text) :=
  match getAllRemotes ls with
  | none => none
  | some t => (t.find? fun e => e.1 = tOrigin).map (·.2)

end Verif.DepVC.Remotes
