import Verif.DepVC.Ctest

/-! # The file Release.info

Model of dist/make-release-changelog.sh (1-23), which writes Release.info and ChangeLog, and of `maybeBackupOldProjectDir` in src/deptool-old (770-801), which reads Release.info. Files are lists of lines, with the time when they were written; commands of the script that fail, and the moving of a directory, are left out. -/

namespace Verif.Dist.ReleaseInfo

open Verif.Deptool.Deps (Text)
open Verif.DepVC.Ctest (isSpace)

/-- A file. Used in the model of `make-release-changelog.sh:1-23` (`update`). -/
structure File where
  lines : List Text
  time : Nat
deriving DecidableEq

/-- What git says. Used in the model of `make-release-changelog.sh:9-18` (`release`). -/
structure Git where
  rev : Text
  status : List Text
  log : List Text
deriving DecidableEq

/-- The directory. Used in the model of `make-release-changelog.sh:9-23` (`release`). -/
structure Dir where
  info : Option File := none
  log : Option File := none
deriving DecidableEq

/-- `Git-Revision: `, line 10. -/
def revKey : Text := "Git-Revision: ".toList

/-- `Creation-Date: `, line 11 and `deptool-old:783`. -/
def dateKey : Text := "Creation-Date: ".toList

/-- Line 12. -/
def beginKey : Text := "BEGIN_EXTRA_STATUS".toList

/-- Line 14. -/
def endKey : Text := "END_EXTRA_STATUS".toList

/-- Lines 10-14. -/
def infoLines (g : Git) (date : Text) : List Text :=
  [revKey ++ g.rev, dateKey ++ date, beginKey] ++ g.status ++ [endKey]

/-- `update`, lines 1-7: a file that is the same stays. -/
def update (now : Nat) (new : List Text) (old : Option File) : Option File :=
  match old with
  | some f => if f.lines = new then some f else some ⟨new, now⟩
  | none => some ⟨new, now⟩

/-- The script, lines 9-23; `none`: exit 1. -/
def release (git : Option Git) (date : Text) (now : Nat) (d : Dir) : Option Dir :=
  let d := match git with
    | some g => { info := update now (infoLines g date) d.info, log := update now g.log d.log }
    | none => d
  if d.info.isNone || d.log.isNone then none else some d

/-- The pattern of `deptool-old:783`. -/
def lineDate (l : Text) : Option Text :=
  if dateKey.isPrefixOf l then
    let r := l.drop dateKey.length
    if r ≠ [] ∧ r.all (fun c => !isSpace c) then some r else none
  else none

/-- The date that is read, `deptool-old:781-784`: the last one. -/
def readDate (ls : List Text) : Option Text :=
  ls.foldl (fun acc l => match lineDate l with | some d => some d | none => acc) none

/-- What is done with the directory of a project. Used in the model of `deptool-old:770-801` (`oldProject`). -/
inductive Action
  | nothingThere
  | backup
  | same
deriving DecidableEq

/-- `maybeBackupOldProjectDir`, `deptool-old:770-801`; `project`: the directory, if there is one. -/
def oldProject (project : Option (Option (List Text))) (date : Text) : Action :=
  match project with
  | none => .nothingThere
  | some none => .backup
  | some (some ls) => match readDate ls with
    | none => .backup
    | some d => if d ≠ date then .backup else .same

end Verif.Dist.ReleaseInfo
