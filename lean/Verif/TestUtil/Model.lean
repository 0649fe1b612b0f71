import Verif.Res

/-!
# Model of `getDeptoolInfo` (`src/TestUtil.cpp`) and of the output it reads (`deptool getenv for-sh`, `src/deptool.in`)

Texts are lists of characters without NUL.
-/

namespace Verif.TestUtil
open Verif

/-- Used in the model of `TestUtil.hpp:62-75` (`Info`). -/
abbrev Text := List Char

/-- `struct DeptoolInfo`, `TestUtil.hpp:62-75`. -/
structure Info where
  os : Text
  version : Text
  arch : Text
deriving DecidableEq, Repr

/-- `osVersion`, `TestUtil.hpp:66-68`. -/
def Info.osVersion (i : Info) : Text := i.os ++ ['-'] ++ i.version

/-- `osVersionArch`, `TestUtil.hpp:69-71`. -/
def Info.osVersionArch (i : Info) : Text := i.os ++ ['-'] ++ i.version ++ ['-'] ++ i.arch

/-- `haveAllInfo`, `TestUtil.hpp:72-74`. -/
def Info.haveAllInfo (i : Info) : Bool := !(i.os.isEmpty || i.version.isEmpty || i.arch.isEmpty)

/-- `"export "`. Used in the model of `deptool.in:3651-3656` (`printEnv`). -/
def kwExport : Text := ['e', 'x', 'p', 'o', 'r', 't', ' ']

/-- `"export BUILD_OS=\""`. Used in the model of `TestUtil.cpp:62-68` (`takeLine`). -/
def kwOs : Text := ['e', 'x', 'p', 'o', 'r', 't', ' ', 'B', 'U', 'I', 'L', 'D', '_', 'O', 'S', '=', '"']

/-- `"export UNAME_M=\""`. Used in the model of `TestUtil.cpp:62-68` (`takeLine`). -/
def kwArch : Text := ['e', 'x', 'p', 'o', 'r', 't', ' ', 'U', 'N', 'A', 'M', 'E', '_', 'M', '=', '"']

/-- `string::find` of a character. Used in the model of `TestUtil.cpp:27-36` (`extractEnv`). -/
def find (c : Char) : Text → Option Nat
  | [] => none
  | x :: xs => if x = c then some 0 else (find c xs).map (· + 1)

/-- `extractEnv`, `TestUtil.cpp:27-36`. -/
def extractEnv (s : Text) : Res Text :=
  match find '"' s with
  | none => .abort
  | some q1 =>
    match find '"' (s.drop (q1 + 1)) with
    | none => .abort
    | some k =>
      if s.length ≠ q1 + 1 + k + 3 then .abort
      else if (s.drop (q1 + 1)).take k = [] then .abort
      else .ok ((s.drop (q1 + 1)).take k)

/-- `fgets(buf, 200, …)`, `TestUtil.cpp:59-61`: up to `n` characters, to the end of a line; the line read and what is left. -/
def fgets : Nat → Text → Text × Text
  | 0, cs => ([], cs)
  | _ + 1, [] => ([], [])
  | n + 1, c :: cs => if c = '\n' then (['\n'], cs) else (c :: (fgets n cs).1, (fgets n cs).2)

/-- One line, `TestUtil.cpp:62-68`. -/
def takeLine (l : Text) (os arch : Text) : Res (Text × Text) :=
  if l.getLast? ≠ some '\n' then .abort
  else if kwOs.isPrefixOf l then (extractEnv l).map (fun v => (v, arch))
  else if kwArch.isPrefixOf l then (extractEnv l).map (fun v => (os, v))
  else .ok (os, arch)

/-- The loop, `TestUtil.cpp:61-69`. The first number is larger than the number of lines. -/
def readLines : Nat → Text → Text → Text → Res (Text × Text)
  | 0, _, _, _ => .ub
  | fuel + 1, out, os, arch =>
    if out = [] then .ok (os, arch)
    else
      match takeLine (fgets 199 out).1 os arch with
      | .ok (os', arch') => readLines fuel (fgets 199 out).2 os' arch'
      | .abort => .abort
      | .ub => .ub

/-- The end, `TestUtil.cpp:73-82`. -/
def fromParts (buildOs arch : Text) : Res Info :=
  match find '-' buildOs with
  | none => .abort
  | some k => .ok ⟨buildOs.take k, buildOs.drop (k + 1), arch⟩

/-- `getDeptoolInfo`, `TestUtil.cpp:41-83`, for the values of `BUILD_OS` and `UNAME_M` (empty if not set) and the output of the pipe, if there is one. -/
def getInfo (buildOs arch : Text) (pipe : Option Text) : Res Info :=
  if buildOs = [] ∨ arch = [] then
    match pipe with
    | none => .ok ⟨[], [], []⟩
    | some out =>
      match readLines (out.length + 1) out buildOs arch with
      | .ok (os', arch') => if os' = [] ∨ arch' = [] then .abort else fromParts os' arch'
      | .abort => .abort
      | .ub => .ub
  else fromParts buildOs arch

/-- What `popen` gives, `TestUtil.cpp:46-56`: a shell is started, whose output is read. `none` if not even that is possible. A shell that does not find the command writes nothing to its output. -/
inductive Started where
  | noShell
  | noDeptool
  | deptool (out : Text)

/-- Used in the model of `TestUtil.cpp:41-83` (`getInfo`). -/
def Started.pipe : Started → Option Text
  | .noShell => none
  | .noDeptool => some []
  | .deptool out => some out

/-- `printEnv('sh', …)`, `deptool.in:3651-3656`. -/
def printEnv (name val : Text) : Text := kwExport ++ name ++ ['=', '"'] ++ val ++ ['"', ';', '\n']

/-- `getEnv` for `for-sh`, `deptool.in:3622-3640`: all variables. -/
def getEnvForSh (kvs : List (Text × Text)) : Text := kvs.flatMap fun kv => printEnv kv.1 kv.2

end Verif.TestUtil
