import Verif.Deptool.Deps

/-!
# deptool checkout: which branch is meant (src/deptool.in:848-991)

Model of src/deptool.in: the branches that are known (depCheckoutGetMtnBranches, 921-942; depCheckoutGetGitBranches, 944-991) and depCheckoutSelectBranch (893-919).  The texts that are used as regular expressions, arguments and branch names, have no special characters but dots.  Names have no newline.  Finding the repositories (949-960) is taken as its result: directories below the one for all repositories, none inside another one because of the pruning.
-/

namespace Verif.DepVC.Checkout

open Verif.Deptool.Deps (Text isWord cutLast)

/-- Lines 939, 986: `vc`. -/
inductive VC where
  | mtn
  | git
deriving DecidableEq, Repr

/-- `$branch_to_info->{...}` (lines 938-939, 985-987): the database or the directory of the repository, `co_path` and `sub_branch`. -/
structure Info where
  vc : VC
  src : Text
  coPath : Text
  sub : Text
deriving DecidableEq, Repr

/-- `@branches` and `%branch_to_info` (lines 857-858); the newest entry of the hash is first. -/
structure Listing where
  names : List Text
  infos : List (Text × Info)
deriving DecidableEq, Repr

/-- `$branch_to_info->{$name}` (lines 881, 904). -/
def Listing.info (l : Listing) (n : Text) : Option Info := (l.infos.find? fun e => decide (e.1 = n)).map (·.2)

/-- One database of monotone (lines 928-941): a branch that is in several databases is taken from the last. -/
def addMtn (l : Listing) (db : Text) (branches : List Text) : Listing :=
  { names := l.names ++ branches, infos := (branches.map fun b => (b, ⟨.mtn, db, [], []⟩)).reverse ++ l.infos }

/-- Lines 928-941 for all databases. -/
def addMtns (l : Listing) : List (Text × List Text) → Listing
  | [] => l
  | (db, bs) :: r => addMtns (addMtn l db bs) r

/-- `\s`. Used in the model of line 974 (`branchLine`). -/
def isSpace (c : Char) : Bool := c == ' ' || c == '\t' || c == '\n' || c == '\r' || c == '\x0c' || c == '\x0b'

/-- `/^\*? +(\S+)$/` (line 974). -/
def branchLine (t : Text) : Option Text :=
  let r := match t with
    | '*' :: r => r
    | r => r
  let n := r.dropWhile (· == ' ')
  if r.head? = some ' ' ∧ n ≠ [] ∧ n.all (fun c => !isSpace c) = true then some n else none

/-- `@sub_branch` (lines 972-980). -/
def subBranches : List Text → Option (List Text)
  | [] => some []
  | t :: r =>
    match branchLine t, subBranches r with
    | some n, some l => some (n :: (if n = "master".toList then [[]] else []) ++ l)
    | _, _ => none

/-- The name of a branch of a repository (lines 982-983). -/
def branchName (prefix_ sub : Text) : Text := if sub = [] then prefix_ else prefix_ ++ '/' :: sub

/-- Lines 982-988, one branch. -/
def addSub (l : Listing) (dir prefix_ sub : Text) : Option Listing :=
  if (l.info (branchName prefix_ sub)).isSome then none
  else some { names := l.names ++ [branchName prefix_ sub], infos := (branchName prefix_ sub, ⟨.git, dir, prefix_, sub⟩) :: l.infos }

/-- Lines 981-989. -/
def addSubs (dir prefix_ : Text) : List Text → Listing → Option Listing
  | [], l => some l
  | s :: r, l => (addSub l dir prefix_ s).bind (addSubs dir prefix_ r)

/-- One repository (lines 964-989): its path below the directory for all, and what `git branch` prints, or `none` if it fails. -/
def addGit (root : Text) (l : Listing) (prefix_ : Text) (out : Option (List Text)) : Option Listing :=
  match out with
  | none => none
  | some lines => (subBranches lines).bind fun s => addSubs (root ++ prefix_) prefix_ s l

/-- Lines 963-990 for all repositories. -/
def addGits (root : Text) : List (Text × Option (List Text)) → Listing → Option Listing
  | [], l => some l
  | (p, out) :: r, l => (addGit root l p out).bind (addGits root r)

/-- A regular expression of dots and ordinary characters at the start of a text (line 915). -/
def dotPrefix : Text → Text → Bool
  | [], _ => true
  | _ :: _, [] => false
  | p :: ps, c :: cs => (p == c || p == '.') && dotPrefix ps cs

/-- Anywhere in the text (line 898). -/
def dotInfix (p : Text) : Text → Bool
  | [] => dotPrefix p []
  | c :: cs => dotPrefix p (c :: cs) || dotInfix p cs

/-- `s/;\w+//` (line 896). -/
def stripOption : Text → Text
  | [] => []
  | c :: r => if c = ';' ∧ (r.head?.any isWord) = true then r.dropWhile isWord else c :: stripOption r

/-- Lines 896-897. -/
def pattern (re : Text) : Text :=
  let r := stripOption re
  if r.head? = some '/' then r else '/' :: r

/-- Is a name a git branch? (lines 904-908). -/
def isGit (l : Listing) (n : Text) : Bool := decide ((l.info n).map (·.vc) = some .git)

/-- Insertion by length, before names of the same length. Used in the model of line 901 (`sortLen`). -/
def insertLen (x : Text) : List Text → List Text
  | [] => [x]
  | y :: r => if x.length ≤ y.length then x :: y :: r else y :: insertLen x r

/-- Line 901: names of the same length stay in order, as with perl's sort. -/
def sortLen : List Text → List Text
  | [] => []
  | x :: r => insertLen x (sortLen r)

/-- Lines 898-909: the possible branches, shortest first. -/
def possibles (l : Listing) (re : Text) : List Text :=
  let p := sortLen (l.names.filter (dotInfix (pattern re)))
  if p.any (isGit l) then p.filter (isGit l) else p

/-- depCheckoutSelectBranch (lines 893-919). -/
def select (l : Listing) (re : Text) : Option Text :=
  match possibles l re with
  | [] => none
  | b :: r => if r.all (dotPrefix b) then some b else none

end Verif.DepVC.Checkout
