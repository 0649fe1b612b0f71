import Verif.Deptool.Deps

/-! # deptool getenv

Model of src/deptool.in: getEnv for a shell (3614-3649), printEnv (3651-3666), and the settings: projects to buildRoot (3668-3684), the last lines of operatingSystem (3687, 3814), unameM (3817-3834), buildDebug to makeParallelism (3836-3892) and mtnServer to mtnRepoDir (3894-3933). How the operating system is recognised (3688-3813) is not modelled here: it is part of the world. The values are cached in the process (`$Cache::`), which only keeps the same question from being asked again; that is not modelled. An environment variable that is interpolated without being there counts as empty. -/

namespace Verif.Deptool.GetEnv

open Verif.Deptool.Deps (Text)

/-- The environment variables that matter. Used in the model of `deptool.in:3614-3649` (`script`). -/
inductive Var where
  | projects | buildRoot | buildOs | unameM | buildDebug | buildOpt | parallelism | mtnServer | gitServer | gitRepoDir | mtnRepoDir
  | home | monotoneDir
deriving DecidableEq

/-- Their names, lines 3629-3639, 3672 and 3926. -/
def Var.str : Var → String
  | .projects => "PROJECTS"
  | .buildRoot => "BUILD_ROOT"
  | .buildOs => "BUILD_OS"
  | .unameM => "UNAME_M"
  | .buildDebug => "BUILD_DEBUG"
  | .buildOpt => "BUILD_OPT"
  | .parallelism => "MAKE_PARALLELISM"
  | .mtnServer => "MTN_SERVER"
  | .gitServer => "DEPTOOL_GIT_SERVER"
  | .gitRepoDir => "DEPTOOL_GIT_REPO_DIR"
  | .mtnRepoDir => "DEPTOOL_MTN_REPO_DIR"
  | .home => "HOME"
  | .monotoneDir => "MONOTONE_DIR"

/-- Used in the model of `deptool.in:3651-3666` (`line`). -/
def Var.name (x : Var) : Text := x.str.toList

/-- `%ENV`. Used in the model of `deptool.in:3668-3675` (`projects`). -/
abbrev Env := Var → Option Text

/-- The machine. Used in the model of `deptool.in:3836-3892` (`debugTree`, `parallelism`). -/
structure World where
  isDir : Text → Bool
  /-- what lines 3688-3813 find -/
  os : Text
  /-- the output of `uname -m` -/
  machine : Text
  /-- lines in `/proc/cpuinfo` that are about a processor -/
  cpuinfo : Nat
  /-- what `sysctl hw.ncpu` says -/
  ncpu : Nat

/-- `$ENV{HOME}` in a string. Used in the model of `deptool.in:3668-3684` (`projects`, `buildRoot`). -/
def home (e : Env) : Text := (e .home).getD []

/-- A value, and what the user was asked about. Used in the model of `deptool.in:3668-3675` (`projects`). -/
abbrev Val := Text × List Var

/-- `projects`, `deptool.in:3668-3675`. -/
def projects (e : Env) : Val :=
  match e .projects with
  | some v => (v, [])
  | none => (home e ++ "/projects".toList, [.projects])

/-- `buildRoot`, `deptool.in:3677-3684`. -/
def buildRoot (e : Env) : Val :=
  match e .buildRoot with
  | some v => (v, [])
  | none => (home e ++ "/build".toList, [.buildRoot])

/-- `operatingSystem`, `deptool.in:3686-3815`. -/
def operatingSystem (e : Env) (w : World) : Val :=
  match e .buildOs with
  | some v => (v, [])
  | none => (w.os, [])

/-- `unameM`, `deptool.in:3817-3834`. -/
def unameM (e : Env) (w : World) : Val :=
  match e .unameM with
  | some v => (v, [])
  | none => (if w.machine = [] then "arch_unknown".toList else w.machine, [])

/-- `dbg-` or `opt-`, the system and the machine. Used in the model of `deptool.in:3843-3844` (`debugTree`) and `3858-3859` (`optTree`). -/
def platform (e : Env) (w : World) (kind : Text) : Text :=
  (buildRoot e).1 ++ '/' :: (kind ++ '-' :: ((operatingSystem e w).1 ++ '-' :: (unameM e w).1))

/-- `buildDebug`, `deptool.in:3836-3849`. -/
def debugTree (e : Env) (w : World) : Val :=
  match e .buildDebug with
  | some v => (v, [])
  | none =>
    (if w.isDir ((buildRoot e).1 ++ "/debug".toList) then (buildRoot e).1 ++ "/debug".toList else platform e w "dbg".toList, (buildRoot e).2 ++ [.buildDebug])

/-- `buildOpt`, `deptool.in:3851-3864`. -/
def optTree (e : Env) (w : World) : Val :=
  match e .buildOpt with
  | some v => (v, [])
  | none =>
    (if w.isDir ((buildRoot e).1 ++ "/optimize".toList) then (buildRoot e).1 ++ "/optimize".toList else platform e w "opt".toList, (buildRoot e).2 ++ [.buildOpt])

/-- The processors counted, lines 3870-3886. -/
def processors (w : World) : Nat := if w.cpuinfo = 0 then w.ncpu else w.cpuinfo

/-- The number in lines 3887-3891; `ceil` of the product with 1.5 is exact below `2^52`. -/
def jobs (w : World) : Nat := if processors w = 0 then 1 else (3 * processors w + 1) / 2

/-- `makeParallelism`, `deptool.in:3866-3892`. -/
def parallelism (e : Env) (w : World) : Val :=
  match e .parallelism with
  | some v => (v, [])
  | none => (Nat.toDigits 10 (jobs w), [])

/-- `mtnServer`, `deptool.in:3894-3900`. -/
def mtnServer (e : Env) : Val :=
  match e .mtnServer with
  | some v => (v, [])
  | none => ("usi.hpl.hp.com".toList, [.mtnServer])

/-- `gitServer`, `deptool.in:3902-3908`. -/
def gitServer (e : Env) : Val :=
  match e .gitServer with
  | some v => (v, [])
  | none => ("git-pa1.hpl.hp.com".toList, [.gitServer])

/-- `gitRepoDir`, `deptool.in:3910-3916`. -/
def gitRepoDir (e : Env) : Val :=
  match e .gitRepoDir with
  | some v => (v, [])
  | none => (home e ++ "/.git".toList, [.gitRepoDir])

/-- `mtnRepoDir`, `deptool.in:3918-3928`. -/
def mtnRepoDir (e : Env) : Val :=
  match e .mtnRepoDir with
  | some v => (v, [])
  | none =>
    match e .monotoneDir with
    | some v => (v, [])
    | none => (home e ++ "/.monotone".toList, [.mtnRepoDir])

/-- The functions in the calls in lines 3629-3639. -/
def setting (e : Env) (w : World) : Var → Val
  | .projects => projects e
  | .buildRoot => buildRoot e
  | .buildOs => operatingSystem e w
  | .unameM => unameM e w
  | .buildDebug => debugTree e w
  | .buildOpt => optTree e w
  | .parallelism => parallelism e w
  | .mtnServer => mtnServer e
  | .gitServer => gitServer e
  | .gitRepoDir => gitRepoDir e
  | .mtnRepoDir => mtnRepoDir e
  | .home => (home e, [])
  | .monotoneDir => ((e .monotoneDir).getD [], [])

/-- Used in the model of `deptool.in:3629-3639` (`script`). -/
def vars : List Var :=
  [.projects, .buildRoot, .buildOs, .unameM, .buildDebug, .buildOpt, .parallelism, .mtnServer, .gitServer, .gitRepoDir, .mtnRepoDir]

/-- `for-sh` and `for-csh`, with and without `--unset`. Used in the model of `deptool.in:3651-3666` (`line`). -/
inductive Shell where
  | sh | csh | unsetSh | unsetCsh

/-- Used in the model of `deptool.in:3651-3666` (`line`). -/
def kExport : Text := ['e', 'x', 'p', 'o', 'r', 't']
/-- Used in the model of `deptool.in:3651-3666` (`line`). -/
def kSetenv : Text := ['s', 'e', 't', 'e', 'n', 'v']
/-- Used in the model of `deptool.in:3651-3666` (`line`). -/
def kUnset : Text := ['u', 'n', 's', 'e', 't']
/-- Used in the model of `deptool.in:3651-3666` (`line`). -/
def kUnsetenv : Text := ['u', 'n', 's', 'e', 't', 'e', 'n', 'v']

/-- `printEnv`, `deptool.in:3651-3666`. -/
def line (s : Shell) (x : Var) (v : Text) : Text :=
  match s with
  | .sh => kExport ++ ' ' :: x.name ++ '=' :: '"' :: (v ++ ['"', ';', '\n'])
  | .csh => kSetenv ++ ' ' :: x.name ++ ' ' :: '"' :: (v ++ ['"', ';', '\n'])
  | .unsetSh => kUnset ++ ' ' :: x.name ++ ['\n']
  | .unsetCsh => kUnsetenv ++ ' ' :: x.name ++ ['\n']

/-- `getEnv` for a shell: everything that is printed, `deptool.in:3623-3639`. -/
def script (s : Shell) (e : Env) (w : World) : Text := vars.flatMap fun x => line s x (setting e w x).1

end Verif.Deptool.GetEnv
