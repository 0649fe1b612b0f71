import Verif.Deptool.Deps

/-! # The macros that find headers and libraries

Model of cmake-modules/LintelFind.cmake: LINTEL_FIND_HEADER, LINTEL_WITH_HEADER, LINTEL_REQUIRED_HEADER (85-162), LINTEL_FIND_LIBRARY_ONE, LINTEL_FIND_LIBRARY, LINTEL_WITH_LIBRARY, LINTEL_REQUIRED_LIBRARY (169-252), for one variable. What cmake has in its cache is part of the state. Names of directories are never words that cmake takes for false. Messages are left out; so is a second call in the same run after nothing was found. -/

namespace Verif.CMakeMod.Find

open Verif.Deptool.Deps (Text)

/-- Where to look and what is there. Used in the model of `LintelFind.cmake:98-112` (`findHeader`) and `171-185` (`findLib`). -/
structure World where
  prefixInc : Text
  extraInc : List Text
  sysInc : List Text
  /-- the directories that have the header -/
  header : Text → Bool
  prefixLib : Text
  extraLib : List Text
  sysLib : List Text
  /-- the directories that have a library of a name -/
  library : Text → Text → Bool

/-- What is known of the variable. Used in the model of `LintelFind.cmake:85-252` (`findHeader`, `findLibrary`). -/
structure Var where
  /-- `X_INCLUDE_DIR` -/
  inc : Option Text := none
  /-- `X_LIBRARY`: the directory and the name -/
  lib : Option (Text × Text) := none
  /-- `X_FIND_REQUIRED` -/
  required : Bool := false
  /-- `WITH_X` in the cache -/
  withOpt : Option Bool := none
  /-- `X_ENABLED` -/
  enabled : Option Bool := none
  /-- `X_FOUND` -/
  found : Bool := false
  /-- how often the variable is in `LINTEL_FIND_ALL_NOTFOUND` -/
  missing : Nat := 0
deriving DecidableEq

/-- `FIND_PATH(… NO_DEFAULT_PATH)` and `FIND_PATH`: nothing is done if the variable has a value. Used in the model of `LintelFind.cmake:98-112` (`findHeader`). -/
def findPath (has : Text → Bool) (cur : Option Text) (dirs : List Text) : Option Text :=
  match cur with
  | some d => some d
  | none => dirs.find? has

/-- `LINTEL_FIND_HEADER`, lines 85-139; `none`: the error ends cmake. -/
def findHeader (w : World) (v : Var) : Option Var :=
  let i := findPath w.header (findPath w.header (findPath w.header v.inc [w.prefixInc]) w.extraInc) w.sysInc
  if v.required && i.isNone then none
  else some { v with inc := i, enabled := if v.required then some true else v.enabled, missing := if i.isNone then v.missing + 1 else v.missing }

/-- `SET(WITH_X ON CACHE BOOL …)`, lines 144 and 234: a value in the cache stays. -/
def withValue (v : Var) : Bool := v.withOpt.getD true

/-- `LINTEL_WITH_HEADER`, lines 141-157. -/
def withHeader (w : World) (v : Var) : Option Var :=
  (findHeader w v).map fun v => { v with withOpt := some (withValue v), enabled := some (withValue v && v.inc.isSome) }

/-- `LINTEL_REQUIRED_HEADER`, lines 159-162. -/
def requiredHeader (w : World) (v : Var) : Option Var := findHeader w { v with required := true }

/-- `FIND_LIBRARY` for one name. Used in the model of `LintelFind.cmake:171-185` (`findLib`). -/
def findIn (w : World) (name : Text) (cur : Option (Text × Text)) (dirs : List Text) : Option (Text × Text) :=
  match cur with
  | some l => some l
  | none => (dirs.find? fun d => w.library d name).map fun d => (d, name)

/-- `LINTEL_FIND_LIBRARY_ONE`, lines 169-189. -/
def findLib (w : World) (cur : Option (Text × Text)) (name : Text) : Option (Text × Text) :=
  findIn w name (findIn w name (findIn w name cur [w.prefixLib]) w.extraLib) w.sysLib

/-- `LINTEL_FIND_LIBRARY`, lines 191-229. -/
def findLibrary (w : World) (names : List Text) (v : Var) : Option Var :=
  (findHeader w v).bind fun v =>
    let l := names.foldl (findLib w) v.lib
    let f := v.inc.isSome && l.isSome
    if v.required && !f then none
    else some { v with lib := l, found := f, missing := if f then v.missing else v.missing + 1 }

/-- `LINTEL_WITH_LIBRARY`, lines 231-247. -/
def withLibrary (w : World) (names : List Text) (v : Var) : Option Var :=
  (findLibrary w names v).map fun v => { v with withOpt := some (withValue v), enabled := some (withValue v && v.found) }

/-- `LINTEL_REQUIRED_LIBRARY`, lines 249-252. -/
def requiredLibrary (w : World) (names : List Text) (v : Var) : Option Var := findLibrary w names { v with required := true }

end Verif.CMakeMod.Find
