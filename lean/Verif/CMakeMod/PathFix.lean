import Verif.Deptool.Deps

/-! # The paths in the documentation made by doxygen

Model of cmake-modules/LintelDocs.cmake: how the directories are passed to the script (135-151) and what the script does with one file (195-216). Texts have no square brackets and no backslashes, in which cmake would keep semicolons together; no directory has a semicolon. -/

namespace Verif.CMakeMod.PathFix

open Verif.Deptool.Deps (Text)

/-- The words between semicolons. Used in the model of `LintelDocs.cmake:195-216` (`fixData`). -/
def words : Text → List Text
  | [] => [[]]
  | c :: t => if c = ';' then [] :: words t else match words t with
    | [] => [[c]]
    | w :: ws => (c :: w) :: ws

/-- The arguments that `${V}` stands for: those that are not empty. Used in the model of `LintelDocs.cmake:195-216` (`fixData`). -/
def args (t : Text) : List Text := (words t).filter (· ≠ [])

/-- What SET puts in a variable: the arguments with semicolons between. Used in the model of `LintelDocs.cmake:205` (`fixData`). -/
def setVar (ws : List Text) : Text := (ws.intersperse [';']).flatten

/-- STRING(REPLACE): from the left, without overlaps. Used in the model of `LintelDocs.cmake:207` (`replaceArg`). -/
def replaceAll (pat rep : Text) : Text → Text
  | [] => []
  | c :: t => if pat ≠ [] ∧ pat.isPrefixOf (c :: t) then rep ++ replaceAll pat rep (t.drop (pat.length - 1)) else c :: replaceAll pat rep t
termination_by t => t.length
decreasing_by all_goals (simp only [List.length_drop, List.length_cons]; omega)

/-- Line 207: the arguments are put together; without any, cmake ends. -/
def replaceArg (pat rep : Text) (v : Text) : Option Text :=
  if args v = [] then none else some (replaceAll pat rep (args v).flatten)

/-- Lines 206-208. -/
def replaceEach (to : Text) (v : Text) : List Text → Option Text
  | [] => some v
  | p :: ps => (replaceArg p to v).bind fun v => replaceEach to v ps

/-- What the file has in the end: lines 205-214. -/
def fixData (paths : List Text) (to : Text) (d : Text) : Option Text :=
  (replaceEach to (setVar (args d)) paths).map fun out => if d = out then d else (args out).flatten

/-- Line 146: `-D LDB_PATHFIX=${LDB_PATHFIX}` is split at the semicolon; only the first is in the variable. -/
def passed (paths : List Text) : List Text := paths.take 1

/-- Lines 135 and 146, and the script. -/
def fixFile (home build to d : Text) : Option Text := fixData (passed [home, build]) to d

end Verif.CMakeMod.PathFix
