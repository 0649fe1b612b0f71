import Verif.Deptool.Deps

/-! # deptool cmake

Model of src/deptool.in: srcDir (3483-3513), runCMake, runCMakeClean and runCMakeConfig (2020-2119). As in `Verif.Deptool.Deps`, names contain no newline and the directories no characters that are special in regular expressions. `Getopt::Long` is not modelled: whether `--clean` was given, and the arguments that are left. `$ENV{DEPTOOL_CMAKE_FLAGS}` is a list of words (line 2087). What cmake does, and what is printed if it fails (2090-2118), is not modelled. -/

namespace Verif.Deptool.CMake

open Verif.Deptool.Deps (Text isWord word cutLast)

/-- Used in the model of `deptool.in:3483-3513` (`srcDir`). -/
structure Trees where
  projects : Text
  opt : Text
  debug : Text

/-- What is on the disk, and where we are. Used in the model of `deptool.in:3483-3513` (`srcDir`). -/
structure Place where
  cwd : Text
  isDir : Text → Bool
  isFile : Text → Bool
  /-- `-d "_MTN"` -/
  mtn : Bool

/-- `s!^$base/!!`. Used in the model of `deptool.in:3483-3513` (`srcDir`). -/
def strip (base dir : Text) : Option Text := if (base ++ ['/']).isPrefixOf dir then some (dir.drop (base.length + 1)) else none

/-- `(\w[^/]*)-(\w+)` against a whole component. Used in the model of `deptool.in:3496-3507` (`fromBuild`). -/
def typed (c : Text) : Option (Text × Text) :=
  match cutLast '-' c with
  | some (a, t) =>
    match a with
    | x :: _ => if isWord x && word t then some (a, t) else none
    | [] => none
  | none => none

/-- Lines 3496-3507: from the path below a build tree to the source. The doubled slash in line 3499 names the same directory. -/
def fromBuild (projects : Text) (isDir : Text → Bool) (r : Text) : Option (Text × Option Text) :=
  if isDir (projects ++ '/' :: r) then some (projects ++ '/' :: r, none)
  else
    match typed (r.takeWhile (· ≠ '/')) with
    | some (a, t) =>
      if isDir (projects ++ '/' :: (a ++ r.dropWhile (· ≠ '/'))) then some (projects ++ '/' :: (a ++ r.dropWhile (· ≠ '/')), some t) else none
    | none => none

/-- `srcDir`, lines 3483-3513; `none`: it dies. -/
def srcDir (T : Trees) (w : Place) : Option (Text × Option Text) :=
  if (strip T.projects w.cwd).isSome then some (w.cwd, none)
  else if w.mtn then some (w.cwd, none)
  else
    match strip T.debug w.cwd with
    | some r => fromBuild T.projects w.isDir r
    | none =>
      match strip T.opt w.cwd with
      | some r => fromBuild T.projects w.isDir r
      | none => none

/-- Used in the model of `deptool.in:2059-2088` (`config`). -/
def tCmake : Text := ['c', 'm', 'a', 'k', 'e']
/-- Used in the model of `deptool.in:2059-2088` (`config`). -/
def tD : Text := ['-', 'D']
/-- Used in the model of `deptool.in:2059-2088` (`config`). -/
def tPrefix : Text := "CMAKE_INSTALL_PREFIX=".toList
/-- Used in the model of `deptool.in:2059-2088` (`config`). -/
def tType : Text := "CMAKE_BUILD_TYPE=".toList
/-- Used in the model of `deptool.in:2071-2079` (`kind`). -/
def tDebug : Text := "Debug".toList
/-- Used in the model of `deptool.in:2071-2079` (`kind`). -/
def tRel : Text := "RelWithDebInfo".toList
/-- Used in the model of `deptool.in:2059-2088` (`config`). -/
def tSubdir : Text := "BUILD_SUBDIR=".toList
/-- Used in the model of `deptool.in:2059-2088` (`config`). -/
def tConfig : Text := "/deptool.config".toList

/-- The tree and the type of the build, lines 2071-2079. -/
def kind (T : Trees) (cwd : Text) : Option (Text × Text) :=
  if T.debug.isPrefixOf cwd then some (T.debug, tDebug) else if T.opt.isPrefixOf cwd then some (T.opt, tRel) else none

/-- `runCMakeConfig`, lines 2059-2088: the command, or `none` when it dies. -/
def config (T : Trees) (w : Place) (flags args : List Text) : Option (List Text) :=
  match srcDir T w with
  | none => none
  | some (src, sub) =>
    if w.isFile (src ++ tConfig) then
      match kind T w.cwd with
      | none => none
      | some (d, ty) =>
        some ([tCmake, tD, tPrefix ++ d, tD, tType ++ ty] ++ (match sub with | some t => [tD, tSubdir ++ t] | none => []) ++ args ++ flags ++ [src])
    else none

/-! ## Cleaning -/

/-- A file or directory: the components of its path. Used in the model of `deptool.in:2048-2051` (`below`). -/
structure Node where
  path : List Text
  dir : Bool
deriving DecidableEq

/-- Used in the model of `deptool.in:2048` (`isCache`). -/
def nCache : Text := ['C', 'M', 'a', 'k', 'e', 'C', 'a', 'c', 'h', 'e']
/-- Used in the model of `deptool.in:2048` (`isCache`). -/
def nTxt : Text := ['t', 'x', 't']
/-- Used in the model of `deptool.in:2049` (`isMakefile`). -/
def nMakefile : Text := ['M', 'a', 'k', 'e', 'f', 'i', 'l', 'e']
/-- Used in the model of `deptool.in:2050` (`isCMakeFiles`). -/
def nCMakeFiles : Text := ['C', 'M', 'a', 'k', 'e', 'F', 'i', 'l', 'e', 's']

/-- `/^CMakeCache.txt$/`, line 2048: the dot stands for any character. -/
def isCache (n : Text) : Bool := decide (n.length = 14) && nCache.isPrefixOf n && nTxt.isSuffixOf n

/-- `/^Makefile$/`, line 2049. -/
def isMakefile (n : Text) : Bool := decide (n = nMakefile)

/-- `/^CMakeFiles$/`, line 2050. -/
def isCMakeFiles (n : Text) : Bool := decide (n = nCMakeFiles)

/-- What `find` comes across below a directory: the directory itself is `.`, lines 2048-2051. -/
def below (cwd : List Text) (x : Node) : Option (List Text) := if cwd.isPrefixOf x.path ∧ cwd.length < x.path.length then some (x.path.drop cwd.length) else none

/-- Whether the last component of what is below is such a name. Made of the parts of `deptool.in:2048-2051`. -/
def lastIs (p : Text → Bool) (cwd : List Text) (x : Node) : Bool :=
  match below cwd x with
  | some r => match r.getLast? with
    | some n => p n
    | none => false
  | none => false

/-- `@files`. Used in the model of `deptool.in:2052-2056` (`clean`). -/
def inFiles (cwd : List Text) (x : Node) : Bool := lastIs (fun n => isCache n || isMakefile n) cwd x

/-- `@dirs`. Used in the model of `deptool.in:2052-2056` (`clean`). -/
def inDirs (cwd : List Text) (x : Node) : Bool := lastIs isCMakeFiles cwd x

/-- What is left: `unlink`, which does not remove directories, and `rmtree`; `false`: it dies in between. Removing is taken to work otherwise. Lines 2052-2056. -/
def clean (cwd : List Text) (fs : List Node) : List Node × Bool :=
  let fs' := fs.filter fun x => !(inFiles cwd x && !x.dir)
  if fs.any fun x => inFiles cwd x && x.dir then (fs', false)
  else (fs'.filter fun x => !(fs.any fun d => inDirs cwd d && d.path.isPrefixOf x.path), true)

/-- `m!^(($projects)|($debug)|($opt))/!`, line 2043. -/
def mayClean (T : Trees) (cwd : Text) : Bool := (strip T.projects cwd).isSome || (strip T.debug cwd).isSome || (strip T.opt cwd).isSome

/-- The path of a directory from its components. Used in the model of `deptool.in:2036-2057` (`runClean`). -/
def pathText : List Text → Text
  | [] => []
  | c :: cs => '/' :: (c ++ pathText cs)

/-- Used in the model of `deptool.in:2036-2057` (`runClean`). -/
inductive Did where
  | died
  | nothing
  | cleaned (fs : List Node)
  | ran (cmd : List Text)
deriving DecidableEq

/-- Used in the model of `deptool.in:2020-2034` (`runCMake`). -/
def tClean : Text := ['c', 'l', 'e', 'a', 'n']

/-- `runCMakeClean`, lines 2036-2057: what is left on the disk. -/
def runClean (T : Trees) (cwd : List Text) (fs : List Node) : Did :=
  if mayClean T (pathText cwd) then
    if (clean cwd fs).2 then .cleaned (clean cwd fs).1 else .died
  else .died

/-- `runCMake`, lines 2020-2034. -/
def runCMake (T : Trees) (w : Place) (cwd : List Text) (fs : List Node) (flags : List Text) (optClean : Bool) (args : List Text) : Did :=
  if optClean then
    if args = [] then .nothing else .died
  else
    match args with
    | a :: rest =>
      if a = tClean then
        if rest = [] then runClean T cwd fs else .died
      else
        match config T w flags args with
        | some c => .ran c
        | none => .died
    | [] =>
      match config T w flags [] with
      | some c => .ran c
      | none => .died

end Verif.Deptool.CMake
