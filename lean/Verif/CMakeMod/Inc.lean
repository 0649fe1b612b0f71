import Verif.DepVC.Ctest

/-! # Where the installed programs look for perl modules

Model of cmake-modules/LintelCMakeUtil.cmake:59: the line of perl that is put into each installed program, with the prefix of the installation in it. -/

namespace Verif.CMakeMod.Inc

open Verif.Deptool.Deps (Text)
open Verif.DepVC.Ctest (isSpace)

/-- `qw'…'`, with the word begun. Used in the model of `LintelCMakeUtil.cmake:59` (`dirs`). -/
def qw : Text → Text → List Text
  | w, [] => if w.isEmpty then [] else [w]
  | w, c :: t => if isSpace c then (if w.isEmpty then qw [] t else w :: qw [] t) else qw (w ++ [c]) t

/-- The directories, `LintelCMakeUtil.cmake:59`. -/
def dirs (pre : Text) : List Text := qw [] (pre ++ ("/share/perl5".toList ++ ' ' :: (pre ++ "/lib/perl5".toList)))

/-- `unshift(@INC, $dir) if grep($_ eq $dir, @INC) == 0` for each, `LintelCMakeUtil.cmake:59`. -/
def addAll : List Text → List Text → List Text
  | [], inc => inc
  | d :: ds, inc => addAll ds (if inc.contains d then inc else d :: inc)

/-- `LintelCMakeUtil.cmake:59`. -/
def setup (pre : Text) (inc : List Text) : List Text := addAll (dirs pre) inc

/-- Where perl finds a module that is in the directories `has`. Not a function of the code; what `@INC` is for. -/
def find (has : Text → Bool) (inc : List Text) : Option Text := inc.find? has

end Verif.CMakeMod.Inc
