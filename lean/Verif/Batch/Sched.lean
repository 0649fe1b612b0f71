/-!
# Model of `local_parallel` and `finish_child`

`/repo/src/batch-parallel.in:217-265`. The kernel's view (`alive`: which process works on which thing) is kept apart from the program's (`kid`: the hash `%kidinfo`). Process ids may be used again once a process has been waited for. The environment answers each
`fork` with a process id or a failure, and each `wait` with one of the processes that are alive and its status. Processes of the module other than those forked here are not modelled.
-/

namespace Verif.Batch

variable {α : Type}

/-- Events, newest first in a log. `started` and `exited` are what the kernel sees. Not a function of the code; stands for the uses of `batch-parallel.in:217-265`. -/
inductive Ev (α : Type) where
  | message (a : α)
  | started (a : α)
  | exited (a : α) (status : Nat)
  | success (a : α)
  | fail (a : α)
deriving DecidableEq, Repr

/-- An answer to `wait`: which of the processes alive has ended, with which status, and whether the module's `rebuild_thing_success` dies for it. Used in the model of `batch-parallel.in:217-233` (`reap`). -/
structure Wait where
  which : Nat
  status : Nat
  dies : Bool
deriving DecidableEq, Repr

/-- Not a function of the code; stands for the uses of `batch-parallel.in:217-265`. -/
structure St (α : Type) where
  /-- `%kidinfo`. -/
  kid : List (Nat × α) := []
  /-- `$nchildren`. -/
  n : Nat := 0
  /-- The processes alive. -/
  alive : List (Nat × α) := []
  log : List (Ev α) := []
  /-- Answers to come. -/
  forks : List (Option Nat) := []
  waits : List Wait := []

/-- `more`: the answers ran out. Not a function of the code; stands for the uses of `batch-parallel.in:217-265`. -/
inductive Out (α : Type) where
  | ok (s : St α)
  | died (s : St α)
  | more (s : St α)

/-- The kernel does not give a process id that is in use. Used in the model of `batch-parallel.in:245-257` (`startOne`). -/
def freshPid (p : Nat) (alive : List (Nat × α)) : Nat :=
  if p ∈ alive.map Prod.fst then (alive.map Prod.fst).foldl max 0 + 1 else p

/-- Used in the model of `batch-parallel.in:217-233` (`reap`). -/
def St.say (s : St α) (e : Ev α) : St α := { s with log := e :: s.log }

/-- `finish_child`, lines 217-233: `pid`'s status is `$?`. -/
def reap (s : St α) (pid : Nat) (w : Wait) : Out α :=
  match s.kid.lookup pid with
  | none => .died s
  | some a =>
    if w.status = 0 then
      if w.dies then .died (s.say (.success a))
      else .ok { s.say (.success a) with kid := s.kid.filter (fun x => x.1 != pid) }
    else .ok { s.say (.fail a) with kid := s.kid.filter (fun x => x.1 != pid) }

/-- `wait`, line 220, and the rest of `finish_child`. Without a child `wait` returns -1. -/
def finishChild (s : St α) : Out α :=
  match s.waits with
  | [] => .more s
  | w :: ws =>
    match s.alive[w.which % s.alive.length]? with
    | none => .died { s with waits := ws }
    | some (pid, a) => reap ({ s with waits := ws, alive := s.alive.eraseIdx (w.which % s.alive.length) }.say (.exited a w.status)) pid w

/-- Lines 245-257: start one thing. -/
def startOne (noExec : Bool) (s : St α) (a : α) : Out α :=
  if noExec then .ok (s.say (.message a))
  else match s.forks with
    | [] => .more s
    | none :: fs => .died { s with forks := fs }
    | some p :: fs =>
      .ok { s.say (.started a) with forks := fs, kid := (freshPid p s.alive, a) :: s.kid.filter (fun x => x.1 != freshPid p s.alive), alive := (freshPid p s.alive, a) :: s.alive, n := s.n + 1 }

/-- Lines 240-243: wait for a child if there are enough of them. -/
def makeRoom (par : Nat) (s : St α) : Out α :=
  if s.n ≥ par then
    match finishChild s with
    | .ok s' => .ok { s' with n := s'.n - 1 }
    | o => o
  else .ok s

/-- Lines 239-258. -/
def launch (par : Nat) (noExec : Bool) : List α → St α → Out α
  | [], s => .ok s
  | a :: things, s =>
    match makeRoom par s with
    | .ok s' =>
      match startOne noExec s' a with
      | .ok s'' => launch par noExec things s''
      | o => o
    | o => o

/-- Lines 261-264, for `$nchildren` children. -/
def drain : Nat → St α → Out α
  | 0, s => .ok s
  | k + 1, s =>
    match finishChild s with
    | .ok s' => drain k { s' with n := s'.n - 1 }
    | o => o

/-- `local_parallel`, lines 235-265. -/
def localParallel (par : Nat) (noExec : Bool) (things : List α) (s : St α) : Out α :=
  match launch par noExec things s with
  | .ok s' => drain s'.n s'
  | o => o

/-- Made of the parts of `batch-parallel.in:217-265`. -/
def Out.state : Out α → St α
  | .ok s => s
  | .died s => s
  | .more s => s

/-- What the program exits with: it runs off its end, or `die` (some code other than 0, written 255 here). Made of the parts of `batch-parallel.in:217-265`. -/
def exitCode : Out α → Option Nat
  | .ok _ => some 0
  | .died _ => some 255
  | .more _ => none

end Verif.Batch
