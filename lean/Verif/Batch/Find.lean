import Verif.Deptool.Deps

/-! # batch-parallel: the files to work on

Model of src/BatchParallel/common.pm: my_abs_path (116-127), fullpath (129-134), find_possibles (156-187), determine_things_to_build (140-154) and find_things_to_build (189-198). Given from outside: the working directory, which names are directories, what File::Find finds below a directory, and what the module decides (which files are sources, the name of the result and whether it is out of date). `abs_path` is modelled without symbolic links and `..`; names have no newline. That a name does not exist (the program dies) is not modelled. -/

namespace Verif.Batch.Find

open Verif.Deptool.Deps (Text)

/-- A name cut at its slashes. Used in the model of `common.pm:116-127` (`absPath`). -/
def parts : Text → List Text
  | [] => [[]]
  | c :: t =>
    if c = '/' then [] :: parts t
    else
      match parts t with
      | [] => [[c]]
      | h :: r => (c :: h) :: r

/-- The steps of a name: empty parts and `.` do not count. Used in the model of `common.pm:116-127` (`absPath`). -/
def steps (t : Text) : List Text := (parts t).filter fun c => c ≠ [] ∧ c ≠ ['.']

/-- Where a name leads, from the working directory or from the root. Used in the model of `common.pm:116-127` (`absPath`). -/
def place (cwd : List Text) (t : Text) : List Text := if t.head? = some '/' then steps t else cwd ++ steps t

/-- Cwd's `abs_path`. Used in the model of `common.pm:116-127` (`myAbsPath`). -/
def absPath (cwd : List Text) (t : Text) : Text :=
  match place cwd t with
  | [] => ['/']
  | cs => (cs.map fun c => '/' :: c).flatten

/-- `m!^(.+)/([^/]+)$!`, line 121. -/
def cutLast (t : Text) : Option (Text × Text) :=
  match t.reverse.dropWhile (· ≠ '/') with
  | _ :: p => if p = [] ∨ t.reverse.takeWhile (· ≠ '/') = [] then none else some (p.reverse, (t.reverse.takeWhile (· ≠ '/')).reverse)
  | [] => none

/-- `my_abs_path`, lines 116-127. -/
def myAbsPath (cwd : List Text) (isDir : Text → Bool) (t : Text) : Text :=
  if isDir t then absPath cwd t
  else
    match cutLast t with
    | some (p, n) => absPath cwd p ++ '/' :: n
    | none => absPath cwd ['.'] ++ '/' :: t

/-- `cmp`. Used in the model of `common.pm:185` (`possibles`). -/
def leText : Text → Text → Bool
  | [], _ => true
  | _ :: _, [] => false
  | a :: s, b :: t => a.toNat < b.toNat || (a == b && leText s t)

/-- What is given from outside. Used in the model of `common.pm:140-198` (`possibles`, `things`). -/
structure World where
  walk : Text → List Text
  source : Text → Text → Bool
  dest : Text → Text → Text
  isFile : Text → Bool
  outOfDate : Text → Text → Text → Bool

/-- The loop of `find_possibles`, lines 168-183; `dirs` are the names after `fullpath`. -/
def found (w : World) (dirs : List Text) : List (Text × Text) :=
  dirs.flatMap fun p => ((w.walk p).filter (w.source p)).map fun f => (p, f)

/-- `find_possibles`, lines 156-187. -/
def possibles (w : World) (dirs : List Text) : List (Text × Text) := (found w dirs).mergeSort fun a b => leText a.2 b.2

/-- `determine_things_to_build`, lines 140-154. -/
def things (w : World) : List (Text × Text) → List (Text × Text × Text)
  | [] => []
  | (p, f) :: r =>
    if !w.isFile (w.dest p f) || w.outOfDate p f (w.dest p f) then (p, f, w.dest p f) :: things w r else things w r

/-- `find_things_to_build`, lines 189-198: the number of sources, and what is to be built. -/
def findThings (w : World) (cwd : List Text) (isDir : Text → Bool) (dirs : List Text) : Nat × List (Text × Text × Text) :=
  let ps := possibles w (dirs.map (myAbsPath cwd isDir))
  (ps.length, things w ps)

end Verif.Batch.Find
