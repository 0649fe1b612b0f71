import Verif.DepVC.Checkout

/-!
# deptool checkout: what is checked out (src/deptool.in:863-891, 993-1059, 5088-5114)

Directories are those below the one for projects, by their path there.  A directory with a slash in its path is apart from its parents.  `git clone` and `mtn co` leave nothing behind when they fail.  When `git remote add -f` fails nothing was added.  The prompt at line 1011 counts as part of the command after it.
-/

namespace Verif.DepVC.Checkout

open Verif.Deptool.Deps (Text isWord cutLast)

/-- What is in a directory (lines 1006, 1009, 1034, 1037): with `.git`, with `_MTN`, or neither.  Of a clone: what was cloned, the urls of origin, and whether the branch follows it. -/
inductive Dir where
  | plain
  | mtn (db branch : Text)
  | git (repo sub : Text) (fetch push : Option Text) (follows : Bool)
deriving DecidableEq, Repr

/-- Used in the model of lines 1006-1015 and 1034-1057. -/
abbrev FS := Text → Option Dir

/-- Used in the model of lines 1006-1015 and 1034-1057. -/
def FS.set (fs : FS) (p : Text) (d : Dir) : FS := fun q => if q = p then some d else fs q

/-- `s!^.*/!!` (line 1024). -/
def lastPart (t : Text) : Text :=
  match cutLast '/' t with
  | some (_, b) => b
  | none => t

/-- `\w+(\.\w+)*` against a whole text (line 997). -/
def dotted : Text → Bool
  | [] => false
  | [c] => isWord c
  | c :: d :: r => isWord c && (if d = '.' then dotted r else dotted (d :: r))

/-- `s!^\w+(\.\w+)*/!!` (line 997). -/
def stripUnique (t : Text) : Text :=
  let a := t.takeWhile (· != '/')
  match t.dropWhile (· != '/') with
  | '/' :: r => if dotted a then r else t
  | _ => t

/-- `$path` (lines 999, 1026). -/
def pathOf (b : Text) (i : Info) : Text :=
  match i.vc with
  | .git => lastPart i.coPath
  | .mtn => stripUnique b

/-- depCheckoutGitCheckout (lines 1019-1059): the urls of origin, and how many commands succeed. -/
def gitCheckout (origin : Option (Text × Text)) (good : Nat) (fs : FS) (b : Text) (i : Info) : FS × Option Text :=
  match fs (pathOf b i) with
  | some (.git _ _ _ _ _) => (fs, some (pathOf b i))
  | some _ => (fs, none)
  | none =>
    if good = 0 then (fs, none)
    else
      match origin with
      | none => (fs.set (pathOf b i) (.git i.src i.sub none none false), none)
      | some (f, p) =>
        if good = 1 then (fs.set (pathOf b i) (.git i.src i.sub none none false), none)
        else if good = 2 then (fs.set (pathOf b i) (.git i.src i.sub (some f) none false), none)
        else if good = 3 then (fs.set (pathOf b i) (.git i.src i.sub (some f) (some p) false), none)
        else (fs.set (pathOf b i) (.git i.src i.sub (some f) (some p) true), some (pathOf b i))

/-- depCheckoutMonotoneCheckout (lines 993-1017). -/
def mtnCheckout (good : Nat) (fs : FS) (b : Text) (i : Info) : FS × Option Text :=
  match fs (pathOf b i) with
  | some (.mtn _ _) => (fs, some (pathOf b i))
  | some _ => (fs, none)
  | none => if good = 0 then (fs, none) else (fs.set (pathOf b i) (.mtn i.src b), some (pathOf b i))

/-- What the program finds: the branches, --sub-branch, the urls of origin in a repository (line 1048), how many commands succeed when a branch is checked out, and the dependencies in the deptool.config of a directory, if it can be read (line 885). -/
structure World where
  list : Listing
  sub : Option Text
  origin : Text → Option (Text × Text)
  good : Text → Nat
  config : Text → Dir → Option (List Text)

/-- Lines 870-879. -/
def choose (w : World) (r : Text) : Option Text :=
  match select w.list r with
  | none => none
  | some b =>
    match w.sub with
    | none => some b
    | some s =>
      match select w.list (r ++ '/' :: s) with
      | some t => some t
      | none => some b

/-- Line 883. -/
def checkoutBranch (w : World) (fs : FS) (b : Text) (i : Info) : FS × Option Text :=
  match i.vc with
  | .git => gitCheckout (w.origin i.src) (w.good b) fs b i
  | .mtn => mtnCheckout (w.good b) fs b i

/-- Lines 885-889. -/
def depsOf (w : World) (fs : FS) (p : Text) : Option (List Text) :=
  match fs p with
  | none => none
  | some d => w.config p d

/-- Lines 870-889: the directories afterwards, and the dependencies. -/
def one (w : World) (fs : FS) (r : Text) : FS × Option (List Text) :=
  match choose w r with
  | none => (fs, none)
  | some b =>
    match w.list.info b with
    | none => (fs, none)
    | some i =>
      match checkoutBranch w fs b i with
      | (fs', none) => (fs', none)
      | (fs', some p) => (fs', depsOf w fs' p)

/-- Used in the model of lines 865-890. -/
inductive End where
  | done
  | died
  | more
deriving DecidableEq, Repr

/-- The loop (lines 865-890), `n` rounds of it: the directories, the keys of `%did_regex`, and how it ended. -/
def loop (w : World) : Nat → List Text → List Text → FS → FS × List Text × End
  | 0, _, did, fs => (fs, did, .more)
  | _ + 1, [], did, fs => (fs, did, .done)
  | n + 1, r :: q, did, fs =>
    if r ∈ did then loop w n q did fs
    else
      match one w fs r with
      | (fs', none) => (fs', r :: did, .died)
      | (fs', some deps) => loop w n (q ++ deps) (r :: did) fs'

end Verif.DepVC.Checkout
