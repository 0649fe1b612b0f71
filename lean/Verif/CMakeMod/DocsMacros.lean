import Verif.CMakeMod.Prog

/-! # The macros for latex and manual pages

Model of cmake-modules/LintelDocs.cmake: LINTEL_LATEX_CONFIG and LINTEL_LATEX_REQUIRES (224-239, 271-288), LINTEL_POD2MAN and LINTEL_POD2MAN_ACTUAL (317-363). The section is compared as a text, not as a number; arguments have no semicolons; the macros are not called in a function, whose arguments would show through. -/

namespace Verif.CMakeMod.DocsMacros

open Verif.Deptool.Deps (Text)
open Verif.CMakeMod.Prog (World Var withProgram)

/-- LINTEL_LATEX_CONFIG, `must`: LINTEL_LATEX_REBUILD_REQUIRED; `check`: whether `--selfcheck` of the program ends with 0; `none`: cmake ends. Model of `LintelDocs.cmake:224-239`. -/
def latexConfig (w : World) (check : Text → Bool) (must : Bool) (v : Var) : Option Var :=
  (withProgram w v).bind fun v =>
    match v.path with
    | none => some v
    | some p => if check p then some v else if must then none else some { v with enabled := none }

/-- The value of one file: lines 279-285. -/
def latexFile (out : Text → Text) (there : Text → Bool) (f : Text) (b : Bool) : Bool :=
  if out f = [] then false else if !there (out f) then false else b

/-- LINTEL_LATEX_REQUIRES, `out`: what kpsewhich writes. Model of `LintelDocs.cmake:271-288`. -/
def latexRequires (out : Text → Text) (there : Text → Bool) (enabled : Bool) (files : List Text) : Bool :=
  if enabled then files.foldl (fun b f => latexFile out there f b) enabled else enabled

/-- What becomes of a manual page. Used in the model of `LintelDocs.cmake:317-363` (`pod2man`). -/
inductive Page
  | made (input output release type manDir : Text)
  | warned
  | fatal
deriving DecidableEq

/-- What there is for the manual pages. Used in the model of `LintelDocs.cmake:317-363` (`pod2man`). -/
structure Dirs where
  source : Text
  binary : Text
  prefixDir : Text
  present : Text → Bool

/-- `User Commands`, line 333. -/
def userCommands : Text := "User Commands".toList

/-- `Unknown`, line 336. -/
def unknown : Text := "Unknown".toList

/-- `/share/man/man`, line 362. -/
def manDir : Text := "/share/man/man".toList

/-- The type, lines 328-340. -/
def pageType (section_ : Text) (arg : Option Text) : Text :=
  match arg with
  | none => if section_ = ['1'] then userCommands else unknown
  | some t => if t = ['-'] then (if section_ = ['1'] then userCommands else unknown) else t

/-- LINTEL_POD2MAN_ACTUAL, lines 327-363, on the arguments that are left. -/
def pageActual (d : Dirs) (args : List Text) : Page :=
  match args with
  | file :: sec :: release :: rest =>
    .made (if d.present (d.source ++ '/' :: file) then d.source ++ '/' :: file else d.binary ++ '/' :: file)
      ((rest[1]?).getD (file ++ '.' :: sec)) release (pageType sec rest.head?) (d.prefixDir ++ manDir ++ sec)
  | _ => .fatal

/-- LINTEL_POD2MAN, lines 317-325; `enabled`: LINTEL_POD2MAN_ENABLED if defined. Arguments that are empty are lost in line 319. -/
def pod2man (d : Dirs) (enabled : Option Bool) (file sec release : Text) (more : List Text) : Page :=
  match enabled with
  | some true => pageActual d ((file :: sec :: release :: more).filter (· ≠ []))
  | some false => .warned
  | none => .fatal

end Verif.CMakeMod.DocsMacros
