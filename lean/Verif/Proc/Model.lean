/-!
# Model of `Lintel::ProcessManager` (`/repo/src/Lintel/ProcessManager.pm`)

One program uses one manager. The system has running processes and zombies; a process may exit at any time between two steps of the program, and a process number may be used again once its process has been
reaped. Exit functions (and the program) are lists of calls; a call of `fork` names the exit function by a number, so that exit functions may start processes with any exit function, also themselves.
Everything else these functions do is the environment's: it may change `$!` at any time.

Not modelled: what the processes do, redirection, signals and `enableSignals`, `DESTROY`, `eval` around the calls (a program that dies has ended), a failing `fork`, other code in the program that reaps processes.
-/

namespace Verif.Proc

/-- Used in the model of `ProcessManager.pm:424` (`merge`). -/
abbrev Pid := Nat
/-- Used in the model of `ProcessManager.pm:320-338` (`handleExit`). -/
abbrev Status := Nat

/-- Hashes keyed by process numbers. Used in the model of `ProcessManager.pm:424` (`merge`). -/
def get {α : Type} (p : Pid) (l : List (Pid × α)) : Option α := (l.find? fun x => x.1 = p).map (·.2)

/-- `delete $h{$p}`. Used in the model of `ProcessManager.pm:320-338` (`handleExit`). -/
def del {α : Type} (p : Pid) (l : List (Pid × α)) : List (Pid × α) := l.filter fun x => x.1 ≠ p

/-- `$h{$p} = $v`. Used in the model of `ProcessManager.pm:320-338` (`handleExit`). -/
def set {α : Type} (p : Pid) (v : α) (l : List (Pid × α)) : List (Pid × α) := (p, v) :: del p l

/-- `map { $ret{$_} = $some{$_} } keys %some`, line 424. -/
def merge {α : Type} (ret some : List (Pid × α)) : List (Pid × α) := some ++ ret.filter fun x => (get x.1 some).isNone

/-- Calls. `fork` with `managed` is the manager's, with the number of its exit function if it has one; without, it is perl's own, or the manager's that gave up waiting for an output file (lines 108-127, 253-255)
before registering the process. -/
inductive Act where
  | fork (managed : Bool) (fn : Option Nat)
  | wait (timed : Bool)
  | waitAll
  | waitPid (p : Pid)
deriving DecidableEq, Repr

/-- Where `wait` is: at the condition of its loop (line 340), in the loop of line 343, after it (line 346), at the second `waitpid` (line 365), at the end of its loop (line 383). -/
inductive Phase where
  | top | inner | after | again | last
deriving DecidableEq, Repr

/-- What is on the stack: the rest of a function; `wait` with `%exited` and `$exit_count`; `waitAll` with `%ret`; `waitPid` with the status it found. Used in the model of `ProcessManager.pm:320-338` (`handleExit`). -/
inductive Frame where
  | acts (rest : List Act)
  | wait (timed : Bool) (ph : Phase) (exited : List (Pid × Status)) (count : Nat)
  | waitAll (ret : List (Pid × Status))
  | waitPid (p : Pid) (found : Option Status)
deriving DecidableEq, Repr

/-- Why it died: line 342, lines 372-381, line 452. -/
inductive Death where
  | noChildren | internal | vanished
deriving DecidableEq, Repr

/-- What can be seen. Not a function of the code; stands for the uses of `ProcessManager.pm:342-342`. -/
inductive Event where
  | forked (p : Pid) (managed fn : Bool)
  | exited (p : Pid) (s : Status)
  | reaped (p : Pid) (s : Status)
  | called (p : Pid) (s : Status)
  | warned (p : Pid) (s : Status)
  | beganWait (timed : Bool)
  | gaveWait (r : List (Pid × Status))
  | beganAll
  | gaveAll (r : List (Pid × Status))
  | beganPid (p : Pid)
  | gavePid (p : Pid) (s : Option Status)
  | died (d : Death)
deriving DecidableEq, Repr

/-- The system, the manager and the program. `noChild`: `$!` is 'No child processes'. `log` has the newest event first. Not a function of the code; stands for the uses of `ProcessManager.pm:73-388`. -/
structure State where
  running : List Pid
  zombies : List (Pid × Status)
  children : List (Pid × Option Nat)
  noChild : Bool
  stack : List Frame
  dead : Bool
  log : List Event
deriving DecidableEq, Repr

/-- What the system decides at a step: the number of a new process or of the zombie to be reaped, whether time is up, which processes can be signalled. Used in the model of `ProcessManager.pm:181-262` (`doAct`). -/
structure Choice where
  pid : Pid
  timeUp : Bool
  signal : Pid → Bool

/-- Not a function of the code; stands for the uses of `ProcessManager.pm:73-424`. -/
inductive Move where
  | exit (p : Pid) (s : Status)
  | errno (noChild : Bool)
  | go (c : Choice)

/-- Used in the model of `ProcessManager.pm:340-386` (`doWait`). -/
def State.die (s : State) (d : Death) : State := { s with dead := true, log := .died d :: s.log }

/-- Used in the model of `ProcessManager.pm:181-262` (`doAct`). -/
def State.exists (s : State) (p : Pid) : Bool := decide (p ∈ s.running) || (get p s.zombies).isSome

/-- `waitpid(-1, WNOHANG)`: the system gives any zombie. Used in the model of `ProcessManager.pm:340-386` (`doWait`). -/
def waitpid (c : Choice) (z : List (Pid × Status)) : Option (Pid × Status) :=
  match get c.pid z with
  | some s => some (c.pid, s)
  | none => z.head?

/-- `$handle_exit`, lines 320-338, in a `wait` that goes on in `ph`. -/
def handleExit (code : Nat → List Act) (s : State) (p : Pid) (st : Status) (timed : Bool) (ph : Phase) (ex : List (Pid × Status)) (n : Nat) (rest : List Frame) : State :=
  let w := Frame.wait timed ph (set p st ex) (n + 1)
  let z := del p s.zombies
  match get p s.children with
  | none => { s with zombies := z, stack := w :: rest, log := .warned p st :: .reaped p st :: s.log }
  | some none => { s with zombies := z, children := del p s.children, stack := w :: rest, log := .reaped p st :: s.log }
  | some (some f) => { s with zombies := z, children := del p s.children, stack := .acts (code f) :: w :: rest, log := .called p st :: .reaped p st :: s.log }

/-- What the caller of `wait` does with its value: `waitAll` line 424, `waitPid` line 450. -/
def giveBack (ex : List (Pid × Status)) : List Frame → List Frame
  | .waitAll ret :: rest => .waitAll (merge ret ex) :: rest
  | .waitPid p _ :: rest => .waitPid p (get p ex) :: rest
  | rest => rest

/-- `return %exited`, line 388. -/
def returnWait (s : State) (ex : List (Pid × Status)) (rest : List Frame) : State := { s with stack := giveBack ex rest, log := .gaveWait ex :: s.log }

/-- Starting `wait`. Used in the model of `ProcessManager.pm:181-262` (`doAct`). -/
def callWait (s : State) (timed : Bool) (rest : List Frame) : State := { s with stack := .wait timed .top [] 0 :: rest, log := .beganWait timed :: s.log }

/-- A call: `fork` lines 181-262, `wait` lines 309-318, `waitAll` lines 417-419, `waitPid` lines 441-446. -/
def doAct (s : State) (c : Choice) (a : Act) (rest : List Frame) : State :=
  match a with
  | .fork managed fn =>
    if s.exists c.pid then s
    else { s with running := c.pid :: s.running, children := if managed then set c.pid fn s.children else s.children, stack := rest, log := .forked c.pid managed (managed && fn.isSome) :: s.log }
  | .wait timed => callWait s timed rest
  | .waitAll => { s with stack := .waitAll [] :: rest, log := .beganAll :: s.log }
  | .waitPid p =>
    if (get p s.children).isSome then { s with stack := .waitPid p none :: rest, log := .beganPid p :: s.log }
    else { s with stack := rest, log := .gavePid p none :: s.log }

/-- One step of `wait`, lines 340-386. -/
def doWait (code : Nat → List Act) (s : State) (c : Choice) (timed : Bool) (ph : Phase) (ex : List (Pid × Status)) (n : Nat) (rest : List Frame) : State :=
  let goto := fun ph => Frame.wait timed ph ex n :: rest
  match ph with
  | .top =>
    if n ≠ 0 then returnWait s ex rest
    else if s.children = [] then s.die .noChildren
    else { s with stack := goto .inner }
  | .inner =>
    match waitpid c s.zombies with
    | some (p, st) => handleExit code s p st timed .inner ex n rest
    | none => { s with stack := goto .after, noChild := if s.running = [] then true else s.noChild }
  | .after =>
    if n ≠ 0 then { s with stack := goto .top }
    else if s.noChild && !(s.children.any fun x => s.exists x.1 && c.signal x.1) then { s with stack := goto .again }
    else { s with stack := goto .last }
  | .again =>
    match waitpid c s.zombies with
    | some (p, st) => handleExit code s p st timed .last ex n rest
    | none => s.die .internal
  | .last => if timed && c.timeUp then returnWait s ex rest else { s with stack := goto .top }

/-- A step of the program. Made of the parts of `ProcessManager.pm:108-386`. -/
def go (code : Nat → List Act) (s : State) (c : Choice) : State :=
  if s.dead then s
  else match s.stack with
    | [] => s
    | .acts [] :: rest => { s with stack := rest }
    | .acts (a :: as) :: rest => doAct s c a (.acts as :: rest)
    | .wait timed ph ex n :: rest => doWait code s c timed ph ex n rest
    | .waitAll ret :: rest =>
      if s.children = [] then { s with stack := rest, log := .gaveAll ret :: s.log }
      else callWait s false (.waitAll ret :: rest)
    | .waitPid p (some st) :: rest => { s with stack := rest, log := .gavePid p (some st) :: s.log }
    | .waitPid p none :: rest =>
      if (get p s.children).isSome then callWait s false (.waitPid p none :: rest)
      else s.die .vanished

/-- Not a function of the code; stands for the uses of `ProcessManager.pm:108-127`. -/
def step (code : Nat → List Act) (s : State) : Move → State
  | .exit p st => if p ∈ s.running then { s with running := s.running.filter (· ≠ p), zombies := s.zombies ++ [(p, st)], log := .exited p st :: s.log } else s
  | .errno b => { s with noChild := b }
  | .go c => go code s c

/-- A new manager (lines 73-81) in a program without processes. -/
def start (main : List Act) : State := ⟨[], [], [], false, [.acts main], false, []⟩

/-- What happens, for any order of steps. Not a function of the code; stands for the uses of `ProcessManager.pm:73-127`. -/
def run (code : Nat → List Act) (main : List Act) (ms : List Move) : State := ms.foldl (step code) (start main)

end Verif.Proc
