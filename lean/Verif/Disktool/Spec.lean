import Verif.Disktool.Model

/-!
# What a user of `lintel-disktool` relies on
-/

namespace Verif.Disktool

/-- The configuration names the drive by its serial number or its place in sysfs. -/
def Listed (c : Config) (s : Sys) (d : Text) : Prop :=
  (∃ t, s.serial d = some t ∧ c.serials t = true) ∨ ∃ t, s.sysfs d = some t ∧ c.sysfsIds t = true

/-- The drive may be used. -/
def Allowed (c : Config) (s : Sys) (d : Text) : Prop :=
  d ∈ s.devices ∧ c.pattern d = true ∧ Listed c s d ∧ c.reserved ((s.serial d).getD []) ((s.sysfs d).getD []) = false

/-- The empty text is not listed, and no drive calls itself `0`. -/
structure Sane (c : Config) (s : Sys) : Prop where
  noEmptySerial : c.serials [] = false
  noEmptyId : c.sysfsIds [] = false
  noZeroSerial : ∀ d, s.serial d ≠ some ['0']
  noZeroId : ∀ d, s.sysfs d ≠ some ['0']

/-- `sdb` is before `sda1` no more than `sdz` after `sdaa`: first by length, then by the characters. -/
def Before (a b : Text) : Prop := a.length < b.length ∨ (a.length = b.length ∧ a ≠ b ∧ leText a b = true)

/-- The drive or the partition that an action writes to. -/
def Act.target : Act → Option Text
  | .wipe d => some (dev ++ d)
  | .table d => some (dev ++ d)
  | .zero p => some p
  | .mkfs p _ => some p
  | .overwrite d => some d
  | _ => none

/-- What one sees in a directory: what was mounted there last. -/
def visible (w : World) (dir : Text) : Option Text := (w.mounts.find? fun e => decide (e.2 = dir)).map (·.1)

/-- The partition of a drive is mounted somewhere. -/
def InUse (w : World) (p : Text) : Prop := ∃ dir, (p, dir) ∈ w.mounts

end Verif.Disktool
