import Verif.Deptool.Deps

/-! # The macros that find programs and perl modules

Model of cmake-modules/LintelFind.cmake: LINTEL_FIND_PROGRAM, LINTEL_WITH_PROGRAM, LINTEL_REQUIRED_PROGRAM (256-317), and LINTEL_FIND_PERL_MODULE, LINTEL_WITH_PERL_MODULE, LINTEL_REQUIRED_PERL_MODULE (417-470), for one variable. Names of files are never words that cmake takes for false. Messages are left out. -/

namespace Verif.CMakeMod.Prog

open Verif.Deptool.Deps (Text)

/-- Where to look and what is there. Used in the model of `LintelFind.cmake:256-294` (`findProgram`). -/
structure World where
  program : Text
  binaryDir : Text
  extra : List Text
  prefixBin : Text
  sysPath : List Text
  /-- `EXISTS`, and what `FIND_PROGRAM` takes for a program -/
  present : Text → Bool

/-- What is known of the variable. Used in the model of `LintelFind.cmake:256-317` (`findProgram`). -/
structure Var where
  /-- `X_PATH` -/
  path : Option Text := none
  required : Bool := false
  withOpt : Option Bool := none
  enabled : Option Bool := none
  missing : Nat := 0
deriving DecidableEq

/-- `FIND_PROGRAM`, lines 267-273. -/
def search (w : World) (cur : Option Text) (dirs : List Text) : Option Text :=
  match cur with
  | some p => some p
  | none => (dirs.map fun d => d ++ '/' :: w.program).find? w.present

/-- Lines 257-265: a program that has vanished is looked for again. -/
def recheck (w : World) (p : Option Text) : Option Text :=
  match p with
  | some p => if w.present p then some p else none
  | none => none

/-- `LINTEL_FIND_PROGRAM`, lines 256-294; `none`: cmake ends. -/
def findProgram (w : World) (v : Var) : Option Var :=
  let p := search w (search w (recheck w v.path) ([w.binaryDir] ++ w.extra ++ [w.prefixBin])) w.sysPath
  if v.required && p.isNone then none
  else some { v with path := p, missing := if p.isNone then v.missing + 1 else v.missing }

/-- `LINTEL_WITH_PROGRAM`, lines 296-312. -/
def withProgram (w : World) (v : Var) : Option Var :=
  (findProgram w v).map fun v => { v with withOpt := some (v.withOpt.getD true), enabled := some (v.withOpt.getD true && v.path.isSome) }

/-- `LINTEL_REQUIRED_PROGRAM`, lines 314-317. -/
def requiredProgram (w : World) (v : Var) : Option Var := findProgram w { v with required := true }

/-! ## Perl modules -/

/-- What is known of the variable of a module. Used in the model of `LintelFind.cmake:417-470` (`findModule`). -/
structure Mod where
  /-- `X_FOUND` in the cache -/
  found : Bool := false
  required : Bool := false
  withOpt : Option Bool := none
  enabled : Option Bool := none
  missing : Nat := 0
deriving DecidableEq

/-- `LINTEL_FIND_PERL_MODULE`, lines 417-451; `perl`: there is a perl, `loads`: it loads the module. -/
def findModule (perl loads : Bool) (m : Mod) : Option Mod :=
  if m.found then some m
  else if perl && loads then some { m with found := true }
  else if m.required then none
  else some { m with found := false, missing := m.missing + 1 }

/-- `LINTEL_WITH_PERL_MODULE`, lines 453-465. -/
def withModule (perl loads : Bool) (m : Mod) : Option Mod :=
  let on := m.withOpt.getD true
  if on then (findModule perl loads { m with withOpt := some on }).map fun m => { m with enabled := some m.found }
  else some { m with withOpt := some on, enabled := some false }

/-- `LINTEL_REQUIRED_PERL_MODULE`, lines 467-470. -/
def requiredModule (perl loads : Bool) (m : Mod) : Option Mod := findModule perl loads { m with required := true }

end Verif.CMakeMod.Prog
