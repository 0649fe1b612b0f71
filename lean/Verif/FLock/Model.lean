/-!
# Model of `Lintel::File::Lock::getLock` and of the program `lintel-flock`

`/repo/src/Lintel/File/Lock.pm:71-104` and `/repo/src/lintel-flock.in:57-175`. One lock file that nobody removes, on a file system that implements `flock`. The kernel's lock belongs to an open file description: one for each run of the program; it
goes when the last descriptor of that description is closed. Perl opens files close-on-exec, so a command started with `system` has no descriptor (the instant between its `fork` and `exec` is left out).
-/

namespace Verif.FLock

/-! ## One call of `getLock` -/

/-- What `flock` answers. Perl gives 1 for `granted` and 0 for the others, which is defined (`pp_flock`). Used in the model of `Lock.pm:84` (`flockValue`). -/
inductive Ans where
  | granted
  | held
  | error
deriving DecidableEq, Repr

/-- After one `flock`. Used in the model of `Lock.pm:83-97` (`round`). -/
inductive After where
  | got
  | gaveUp
  | again
  | died
deriving DecidableEq, Repr

/-- `$ret` of line 84 as a perl value: undefined, or a number. -/
def flockValue : Ans → Option Nat
  | .granted => some 1
  | .held => some 0
  | .error => some 0

/-- One round of the loop of lines 83-97: `start` is line 82, `now` the time of line 95. -/
def round (ans : Ans) (start now wait : Int) : After :=
  match flockValue ans with
  | none => .died
  | some n => if n ≠ 0 then .got else if now - start ≥ wait then .gaveUp else .again

/-- Without a waiting time, lines 98-103: `flock` waits by itself, so it is not answered `held`. -/
def roundForever : Ans → After
  | .granted => .got
  | .held => .again
  | .error => .died

/-- One round, with or without a waiting time. Used in the model of `Lock.pm:73-91` (`State.answered`). -/
def tryOnce (ans : Ans) (start now : Int) : Option Int → After
  | some wait => round ans start now wait
  | none => roundForever ans

/-- What a call of `getLock` comes to; `waiting` when the answers run out first. Used in the model of `Lock.pm:71-104` (`getLock`). -/
inductive Outcome where
  | handle
  | undef
  | dies
  | waiting
deriving DecidableEq, Repr

/-- The loop, with the kernel's answers and the times. Used in the model of `Lock.pm:71-104` (`getLock`). -/
def lockLoop (start : Int) (wait : Option Int) : List (Ans × Int) → Outcome
  | [] => .waiting
  | (ans, now) :: rest =>
    match tryOnce ans start now wait with
    | .got => .handle
    | .gaveUp => .undef
    | .died => .dies
    | .again => lockLoop start wait rest

/-- `getLock`, lines 71-104. -/
def getLock (opens : Bool) (start : Int) (wait : Option Int) (answers : List (Ans × Int)) : Outcome :=
  if !opens then .dies
  else if (wait.map fun w => decide (w < 0)) = some true then .dies
  else lockLoop start wait answers

/-! ## The program -/

/-- What `system` returns: -1 when the command could not be started, else the status of `waitpid`. Used in the model of `lintel-flock.in:84-86` (`exitCode`). -/
inductive SysRet where
  | notStarted
  | status (n : Fin 65536)
deriving DecidableEq, Repr

/-- The number `$ret` as perl's `>>` sees it, an unsigned 64-bit number. Used in the model of `lintel-flock.in:84-86` (`exitCode`). -/
def SysRet.word : SysRet → Nat
  | .notStarted => 2 ^ 64 - 1
  | .status n => n.val

/-- `lintel-flock.in:84-86`: the argument of `exit`; the system keeps its low eight bits. -/
def exitOf (w : Nat) : Nat := (if w / 2 ^ 8 = 0 ∧ w ≠ 0 then 233 else w / 2 ^ 8) % 256

/-- Made of the parts of `lintel-flock.in:84-86`. -/
def exitCode (ret : SysRet) : Nat := exitOf ret.word

/-- Used in the model of `Lock.pm:112-154` (`Run`). -/
inductive Mode where
  | command
  | script
deriving DecidableEq, Repr

/-- The program itself. Used in the model of `Lock.pm:112-154` (`Run`). -/
inductive Main where
  | fresh
  | waiting
  | locked
  | done
deriving DecidableEq, Repr

/-- A run of the program and what belongs to it: the command it started, its background process (lines 112-154), and the script that called it (`--callpid`). -/
structure Run where
  mode : Mode := .command
  start : Int := 0
  wait : Option Int := none
  main : Main := .fresh
  cmd : Bool := false
  forked : Bool := false
  child : Bool := false
  caller : Bool := true
deriving DecidableEq, Repr

/-- Not a function of the code; stands for the uses of `Lock.pm:73-154`. -/
inductive Ev where
  | began (r : Nat) (mode : Mode) (start : Int) (wait : Option Int)
  | cmdStart (r : Nat)
  | cmdEnd (r : Nat) (status : Fin 65536)
  | success (r : Nat)
  | unlocked (r : Nat)
  | callerGone (r : Nat)
  | exited (r : Nat) (code : Nat)
  | gaveUp (r : Nat) (now : Int)
  | mainKilled (r : Nat)
  | childKilled (r : Nat)
  | misjudged (r : Nat)
deriving DecidableEq, Repr

/-- All runs, the run whose file description has the lock, and the events, newest first. Not a function of the code; stands for the uses of `Lock.pm:73-154`. -/
structure State where
  runs : Nat → Run := fun _ => {}
  owner : Option Nat := none
  log : List Ev := []

/-- Not a function of the code; stands for the uses of `Lock.pm:73-154`. -/
inductive Move where
  /-- A run of the program opens the file. -/
  | start (r : Nat) (mode : Mode) (now : Int) (wait : Option Int)
  /-- It asks for the lock. -/
  | attempt (r : Nat) (now : Int)
  /-- It asks for the lock, and `flock` fails for another reason than that the lock is held. -/
  | attemptFails (r : Nat) (now : Int)
  | spawn (r : Nat)
  | spawnFails (r : Nat)
  | cmdExits (r : Nat) (status : Fin 65536)
  | fork (r : Nat)
  | forkFails (r : Nat)
  /-- It prints `success` and ends. -/
  | report (r : Nat)
  /-- The calling script ends. -/
  | callerExits (r : Nat)
  /-- The background process looks for the calling script; `permitted`: it may send signals to it. -/
  | poll (r : Nat) (permitted : Bool)
  /-- `lintel-flock --unlock` for this run. -/
  | unlock (r : Nat)
  | killMain (r : Nat)
  | killChild (r : Nat)
deriving DecidableEq, Repr

/-- Used in the model of `Lock.pm:73-91` (`State.answered`). -/
def State.set (s : State) (r : Nat) (x : Run) : State := { s with runs := fun i => if i = r then x else s.runs i }

/-- Used in the model of `Lock.pm:73-91` (`State.answered`). -/
def State.say (s : State) (e : Ev) : State := { s with log := e :: s.log }

/-- The kernel: a lock whose description has no descriptor any more is free. Used in the model of `Lock.pm:73-91` (`State.exits`). -/
def State.settle (s : State) (r : Nat) : State :=
  if s.owner = some r ∧ (s.runs r).main ≠ .locked ∧ (s.runs r).child = false then { s with owner := none } else s

/-- The program ends with a code. Used in the model of `Lock.pm:73-91` (`State.answered`). -/
def State.exits (s : State) (r code : Nat) : State := ((s.set r { s.runs r with main := .done }).say (.exited r code)).settle r

/-- The background process ends. Used in the model of `Lock.pm:73-91` (`step`). -/
def State.childEnds (s : State) (r : Nat) : State := (s.set r { s.runs r with child := false }).settle r

/-- What follows one answer of the kernel: lines 73-91 and 95-109 of `lintel-flock.in` (`internal-error` is 233, a time-out is 1). -/
def State.answered (s : State) (r : Nat) (ans : Ans) (now : Int) : State :=
  match tryOnce ans (s.runs r).start now (s.runs r).wait with
  | .got => { s.set r { s.runs r with main := .locked } with owner := some r }
  | .gaveUp => (s.say (.gaveUp r now)).exits r 1
  | .died => s.exits r 233
  | .again => s

/-- Not a function of the code; stands for the uses of `Lock.pm:73-91`. -/
def step (s : State) : Move → State
  | .start r mode now wait =>
    if (s.runs r).main ≠ .fresh then s
    else (s.set r { mode := mode, start := now, wait := wait, main := .waiting, caller := (s.runs r).caller }).say (.began r mode now wait)
  | .attempt r now =>
    if (s.runs r).main ≠ .waiting then s
    else s.answered r (if s.owner = none then .granted else .held) now
  | .attemptFails r now =>
    if (s.runs r).main ≠ .waiting then s
    else s.answered r .error now
  | .spawn r =>
    if (s.runs r).main ≠ .locked ∨ (s.runs r).mode ≠ .command ∨ (s.runs r).cmd then s
    else (s.set r { s.runs r with cmd := true }).say (.cmdStart r)
  | .spawnFails r =>
    if (s.runs r).main ≠ .locked ∨ (s.runs r).mode ≠ .command ∨ (s.runs r).cmd then s
    else s.exits r (exitCode .notStarted)
  | .cmdExits r st =>
    if !(s.runs r).cmd then s
    else
      let s' := (s.set r { s.runs r with cmd := false }).say (.cmdEnd r st)
      if (s.runs r).main = .locked then s'.exits r (exitCode (.status st)) else s'
  | .fork r =>
    if (s.runs r).main ≠ .locked ∨ (s.runs r).mode ≠ .script ∨ (s.runs r).forked then s
    else s.set r { s.runs r with forked := true, child := true }
  | .forkFails r =>
    if (s.runs r).main ≠ .locked ∨ (s.runs r).mode ≠ .script ∨ (s.runs r).forked then s
    else s.exits r 233
  | .report r =>
    if (s.runs r).main ≠ .locked ∨ (s.runs r).forked = false then s
    else (s.say (.success r)).exits r 0
  | .callerExits r =>
    if (s.runs r).caller = false then s
    else (s.set r { s.runs r with caller := false }).say (.callerGone r)
  | .poll r permitted =>
    if (s.runs r).child = false then s
    else if (s.runs r).caller ∧ permitted then s
    else if (s.runs r).caller then (s.say (.misjudged r)).childEnds r
    else s.childEnds r
  | .unlock r =>
    if .success r ∈ s.log then (s.say (.unlocked r)).childEnds r else s
  | .killMain r =>
    if (s.runs r).main = .waiting ∨ (s.runs r).main = .locked then ((s.set r { s.runs r with main := .done }).say (.mainKilled r)).settle r
    else s
  | .killChild r =>
    if (s.runs r).child = false then s
    else (s.say (.childKilled r)).childEnds r

/-- Not a function of the code; stands for the uses of `Lock.pm:73-154`. -/
def run (s : State) (ms : List Move) : State := ms.foldl step s

end Verif.FLock
