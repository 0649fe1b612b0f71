import Verif.Deptool.Deps

/-! # deptool cdsrc, cdopt, cddebug

Model of src/deptool.in: cdSrc, cdBuild and cdInitialPrep (3281-3340), as used by the shell functions that the documentation gives (lines 3248, 3265, 3277): what is printed is done by the shell. The three directories are set in the environment; they, the directories below them and the types contain no characters that are special to the shell. Making a directory works. -/

namespace Verif.DepVC.Cd

open Verif.Deptool.Deps (Text isWord divideDir)

/-- Used in the model of `deptool.in:3281-3294` (`cdSrc`). -/
structure Trees where
  projects : Text
  opt : Text
  debug : Text

/-- A shell: where it is, and its variables `deptool_…_subbuild` by the middle of their names. Used in the model of `deptool.in:3281-3294` (`cdSrc`). -/
structure Shell where
  cwd : Text
  env : Text → Option Text

/-- `s/\W/_/go`, line 3305. -/
def clean (p : Text) : Text := p.map fun c => if isWord c then c else '_'

/-- Used in the model of `deptool.in:3296-3322` (`cdBuild`). -/
def setVar (env : Text → Option Text) (k v : Text) : Text → Option Text := fun j => if j = k then some v else env j

/-- `cdSrc`, lines 3281-3294. -/
def cdSrc (T : Trees) (isDir : Text → Bool) (s : Shell) : Shell :=
  match divideDir T.projects T.opt T.debug s.cwd with
  | none => s
  | some (p, sub, _) => if isDir (T.projects ++ '/' :: (p ++ sub)) then { s with cwd := T.projects ++ '/' :: (p ++ sub) } else s

/-- The type, lines 3307-3310. -/
def typeFor (env : Text → Option Text) (p found : Text) (arg : Option Text) : Text :=
  arg.getD (if found = [] then (env (clean p)).getD [] else found)

/-- Line 3312. -/
def dashed (t : Text) : Text := if t = [] then [] else '-' :: t

/-- `cdBuild`, lines 3296-3322. -/
def cdBuild (T : Trees) (debug : Bool) (arg : Option Text) (s : Shell) : Shell :=
  match divideDir T.projects T.opt T.debug s.cwd with
  | none => s
  | some (p, sub, found) =>
    let t := typeFor s.env p found arg
    { cwd := (if debug then T.debug else T.opt) ++ '/' :: (p ++ (dashed t ++ sub)), env := setVar s.env (clean p) t }

/-- Not a function of the code; stands for the uses of `deptool.in:3281-3322`. -/
inductive Move where
  | src
  /-- `cdopt` or `cddebug`, with a type or without -/
  | build (debug : Bool) (arg : Option Text)
  /-- the shell's own `cd` to a directory of a source -/
  | go (p sub : Text)

/-- Not a function of the code; stands for the uses of `deptool.in:3281-3322`. -/
def step (T : Trees) (isDir : Text → Bool) (s : Shell) : Move → Shell
  | .src => cdSrc T isDir s
  | .build d a => cdBuild T d a s
  | .go p sub => { s with cwd := T.projects ++ '/' :: (p ++ sub) }

/-- Not a function of the code; stands for the uses of `deptool.in:3281-3322`. -/
def run (T : Trees) (isDir : Text → Bool) (s : Shell) (ms : List Move) : Shell := ms.foldl (step T isDir) s

end Verif.DepVC.Cd
