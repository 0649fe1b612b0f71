import Verif.CMakeMod.Find

/-! # The macro for the libraries of boost

Model of cmake-modules/LintelFind.cmake: LINTEL_BOOST_EXTRA (347-408), after FindBoost, for a variable without extra includes of its own, on top of `Verif.CMakeMod.Find`. Lists are compared as lists, not joined by semicolons. Messages are left out. -/

namespace Verif.CMakeMod.BoostExtra

open Verif.Deptool.Deps (Text)
open Verif.CMakeMod.Find (World Var findHeader withHeader findLibrary withLibrary)

/-- `/usr/lib`, lines 383 and 391. -/
def usrLib : Text := "/usr/lib".toList

/-- `/usr/lib64`, lines 385 and 390. -/
def usrLib64 : Text := "/usr/lib64".toList

/-- `/usr/lib/x86_64-linux-gnu`, lines 393 and 397. -/
def usrGnu : Text := "/usr/lib/x86_64-linux-gnu".toList

/-- What FindBoost says, and whether the two files are there. Used in the model of `LintelFind.cmake:347-408` (`boostLibrary`). -/
structure Boost where
  /-- `Boost_INCLUDE_DIRS` -/
  incDirs : List Text
  /-- `Boost_LIBRARY_DIRS` -/
  libDirs : List Text
  /-- line 384 -/
  has64 : Bool
  /-- line 392 -/
  hasGnu : Bool
deriving DecidableEq

/-- Lines 382-398. -/
def correct (b : Boost) (dir : Text) : List Text :=
  if b.libDirs == [usrLib] && b.has64 && dir == usrLib64 then [usrLib64]
  else if b.libDirs == [usrLib] && b.hasGnu && dir == usrGnu then [usrGnu]
  else b.libDirs

/-- Lines 373-378: the include directories. -/
def sameInc (b : Boost) (v : Var) : Bool := v.inc.toList == b.incDirs

/-- LINTEL_BOOST_EXTRA with a library, lines 347-408; `none`: cmake ends. -/
def boostLibrary (w : World) (b : Boost) (names : List Text) (v : Var) : Option (Var × Boost) :=
  let w := { w with extraInc := b.incDirs, extraLib := b.libDirs }
  (if v.required then findLibrary w names v else withLibrary w names v).bind fun v =>
    if v.enabled = some true then
      if sameInc b v then
        let dir := (v.lib.map (·.1)).getD []
        if [dir] == correct b dir then some (v, { b with libDirs := correct b dir }) else none
      else none
    else some (v, b)

/-- LINTEL_BOOST_EXTRA with `None`, lines 347-408. -/
def boostHeader (w : World) (b : Boost) (v : Var) : Option Var :=
  let w := { w with extraInc := b.incDirs }
  (if v.required then findHeader w v else withHeader w v).bind fun v =>
    if v.enabled = some true then (if sameInc b v then some v else none) else some v

end Verif.CMakeMod.BoostExtra
