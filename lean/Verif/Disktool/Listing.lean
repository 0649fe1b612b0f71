import Verif.Disktool.Model

/-! # lintel-disktool list

Model of src/lintel-disktool.in: `list` (309-343) after `findDrives` (232-307). The lists it prints, before they are joined by spaces. -/

namespace Verif.Disktool

/-- What is printed, lines 311-341. `lost` and `unknown` are printed only if `known_serials` is in the configuration. The information on a drive is `none` if there is none. -/
structure Listing where
  used : List Text
  unused : List Text
  unusedSerials : List Text
  unusedIds : List Text
  reserved : List Text
  lost : Option (List Text)
  unknown : Option (List Text)
  info : List (Text × Option Text)

/-- Line 285: the function of the configuration says so. -/
def isReserved (c : Config) (s : Sys) (d : Text) : Bool := c.reserved (orEmpty (s.serial d)) (orEmpty (s.sysfs d))

/-- `s!^/dev/!!`, line 334. -/
def stripDev (t : Text) : Text := if dev.isPrefixOf t then t.drop 5 else t

/-- Lines 333-340. -/
def infoOf (s : Sys) (cand : List Text) (a : Text) : Text × Option Text :=
  (stripDev a, if cand.contains (stripDev a) then some (orEmpty (s.serial (stripDev a))) else none)

/-- `list`, lines 309-343; `none`: it dies. -/
def list (c : Config) (s : Sys) (known : Option (List Text)) (args : List Text) : Option Listing :=
  let cand := sortDrives (s.devices.filter c.pattern)
  if cand.all fun d => decide (s.minor d % 16 = 0) then
    let unused := cand.filter fun d => !isReserved c s d && !used c s d
    let serials := unused.map fun d => orEmpty (s.serial d)
    some
      { used := cand.filter (used c s)
        unused := unused
        unusedSerials := serials
        unusedIds := unused.map fun d => orEmpty (s.sysfs d)
        reserved := cand.filter (isReserved c s)
        lost := known.map fun k => k.filter fun t => !(cand.map fun d => orEmpty (s.serial d)).contains t
        unknown := known.map fun k => serials.filter fun t => !k.contains t
        info := args.map (infoOf s cand) }
  else none

end Verif.Disktool
