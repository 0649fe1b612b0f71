import Verif.Res

/-! # batch-parallel tar: when an archive is made anew

Model of src/BatchParallel/tar.pm: needs_rebuild (311-315) with file_older (src/BatchParallel/common.pm:92-107), and rebuild_thing_do, rebuild_thing_success and rebuild_thing_fail (268-297) of one archive, with the sources changing at any time in between. Files are numbers, their contents numbers, times whole seconds (what -M compares). The process that makes the archive is the sequence of its steps: tar copies one file of its list after the other. Left out: the list of files in /tmp, the leading directories, several archives at the same time. -/

namespace Verif.Batch.TarRun

/-- The process: the files still to be copied, the time of the last write to the temporary archive, and its contents. Used in the model of `tar.pm:268-283` (`step`). -/
structure Job where
  todo : List Nat
  time : Nat
  arch : Nat → Option Nat

/-- The state. Used in the model of `tar.pm:268-315` (`step`): the sources with their times and contents, the archive with its time and contents. -/
structure St where
  now : Nat
  src : Nat → Option (Nat × Nat)
  dest : Option (Nat × (Nat → Option Nat))
  job : Option Job

/-- What happens. Used in the model of `tar.pm:268-315` (`step`). -/
inductive Op where
  | tick
  | write (n c : Nat)
  | remove (n : Nat)
  /-- batch-parallel looks at the archive. -/
  | start
  /-- tar copies the next file; it fails if there is none of this name. -/
  | copy
  /-- tar ends; batch-parallel calls `rebuild_thing_success` or `rebuild_thing_fail`. -/
  | finish
  /-- tar fails or is killed. -/
  | fail

/-- The sources found among the names of the group. Used in the model of `tar.pm:311-315` (`needsRebuild`). -/
def sources (names : List Nat) (s : St) : List Nat := names.filter fun n => (s.src n).isSome

/-- `file_older`: whether the archive is missing or older than any of the sources, `common.pm:92-107` and `tar.pm:311-315`. -/
def needsRebuild (names : List Nat) (s : St) : Bool :=
  match s.dest with
  | none => true
  | some (t, _) => (sources names s).any fun n => ((s.src n).map (·.1)).any (t < ·)

/-- One step, `tar.pm:268-297`. -/
def step (names : List Nat) (s : St) : Op → St
  | .tick => { s with now := s.now + 1 }
  | .write n c => { s with src := fun k => if k = n then some (s.now, c) else s.src k }
  | .remove n => { s with src := fun k => if k = n then none else s.src k }
  | .start =>
    match s.job with
    | some _ => s
    | none => if !(sources names s).isEmpty && needsRebuild names s then { s with job := some ⟨sources names s, s.now, fun _ => none⟩ } else s
  | .copy =>
    match s.job with
    | some ⟨n :: todo, _, a⟩ =>
      match s.src n with
      | some (_, c) => { s with job := some ⟨todo, s.now, fun k => if k = n then some c else a k⟩ }
      | none => { s with job := none }
    | _ => s
  | .finish =>
    match s.job with
    | some ⟨[], t, a⟩ => { s with dest := some (t, a), job := none }
    | _ => s
  | .fail => { s with job := none }

/-- A history. Used in the model of `tar.pm:268-315` (`step`). -/
def run (names : List Nat) (s : St) : List Op → St
  | [] => s
  | o :: os => run names (step names s o) os

end Verif.Batch.TarRun
