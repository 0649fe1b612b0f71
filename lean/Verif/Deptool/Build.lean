/-!
# The parallel build of deptool (src/deptool.in)

`depBuildParallel` with the functions it calls. Build directories are numbers; which source a directory belongs to and which directories it needs is given. The stamp files are their times, 0 if there is none. One element of the list of answers is what happens in one iteration of the main loop: for which directories `dbpFindOld` finds a source newer than the stamp, which of the running processes `wait(10)` reaps and with what result, and how much later than needed the stamps come out.

Simplified: output, `mkpath` and `chdir` do not fail; the children do not touch stamps other than their own (the stamp that the build itself makes, line 1164, is overwritten by line 1640); the tests inside one directory are one process (lines 1429-1551 are not modelled).
-/

namespace Verif.Deptool

/-- Used in the model of `deptool.in:1684-1709` (`Graph`). -/
abbrev Node := Nat

/-- Used in the model of `deptool.in:1194-1223` (`stampNow`). -/
inductive Kind where
  | build | install | test
deriving DecidableEq, Repr

/-- `$dependencies`, lines 1684-1709. -/
structure Graph where
  deps : Node → List Node
  src : Node → Nat

/-- Not a function of the code; stands for the uses of `deptool.in:186-1661`. -/
inductive Ev where
  | start (k : Kind) (n : Node)
  | upToDate (k : Kind) (n : Node)
  | finish (k : Kind) (n : Node) (good : Bool)
deriving DecidableEq, Repr

/-- The variables of `depBuildParallel`; `exited`: the status (zero or not) of the process of this kind, if it has been reaped (`running_...` and `status_...`); `last` is `$Global::last_stamp_timestamp`. The log has the newest event first. Not a function of the code; stands for the uses of `deptool.in:186-1773`. -/
structure St where
  pending : List (Node × Kind)
  running : Kind → Option Node := fun _ => none
  exited : Kind → Option Bool := fun _ => none
  done : Node → Kind → Bool := fun _ _ => false
  stamp : Node → Kind → Nat
  last : Nat
  ok : Bool := true
  prev : Nat
  log : List Ev := []

/-- Used in the model of `deptool.in:1739-1772` (`rest`). -/
structure Answer where
  newer : Node → Bool
  reaped : Kind → Option Bool
  later : Kind → Nat

/-- Used in the model of `deptool.in:1262-1314` (`startBuild`). -/
def set {α : Type} (f : Kind → α) (k : Kind) (v : α) : Kind → α := fun j => if j = k then v else f j
/-- Used in the model of `deptool.in:1194-1223` (`stampNow`). -/
def set2 {α : Type} (f : Node → Kind → α) (n : Node) (k : Kind) (v : α) : Node → Kind → α := fun m j => if m = n ∧ j = k then v else f m j

/-- The dependencies that count: those of other sources (lines 1245-1246). -/
def Graph.awaited (g : Graph) (n : Node) : List Node := (g.deps n).filter fun d => g.src d ≠ g.src n

/-- `dbpOutOfDate`, lines 1234-1260, the second and the third result. -/
def depsInstalled (g : Graph) (s : St) (n : Node) : Bool := (g.awaited n).all fun d => s.done d .install
/-- Used in the model of `deptool.in:1262-1314` (`startBuild`). -/
def outOfDate (g : Graph) (s : St) (n : Node) : Bool :=
  decide (s.stamp n .build = 0) || (g.awaited n).any fun d => s.done d .install && decide (s.stamp n .build ≤ s.stamp d .install)

/-- `stamp`, lines 1194-1223: the time the file gets is at least one more than that of the stamp before. -/
def stampNow (s : St) (n : Node) (k : Kind) (later : Nat) : St :=
  { s with stamp := set2 s.stamp n k (s.last + 1 + later), last := s.last + 1 + later }

/-- `dbpStartBuild`, lines 1262-1314. -/
def startBuild (g : Graph) (newer : Node → Bool) (s : St) : St :=
  match s.pending.find? fun x => decide (x.2 = .build) && depsInstalled g s x.1 with
  | none => s
  | some x =>
    let s := { s with pending := s.pending.erase x }
    if outOfDate g s x.1 || newer x.1 then
      { s with stamp := set2 s.stamp x.1 .build 0, running := set s.running .build (some x.1), exited := set s.exited .build none, log := .start .build x.1 :: s.log }
    else { s with done := set2 s.done x.1 .build true, log := .upToDate .build x.1 :: s.log }

/-- `dbpStartWhich`, lines 1567-1609. -/
def startWhich (k : Kind) (s : St) : St :=
  match s.pending.find? fun x => decide (x.2 = k) && s.done x.1 .build with
  | none => s
  | some x =>
    let s := { s with pending := s.pending.erase x }
    if s.stamp x.1 k ≤ s.stamp x.1 .build then
      { s with running := set s.running k (some x.1), exited := set s.exited k none, log := .start k x.1 :: s.log }
    else { s with done := set2 s.done x.1 k true, log := .upToDate k x.1 :: s.log }

/-- `dbpFinishWhich`, lines 1611-1661; the second part: whether it does not die. -/
def finish (g : Graph) (k : Kind) (later : Nat) (s : St) : St × Bool :=
  match s.running k, s.exited k with
  | some n, some true =>
    let s := stampNow s n k later
    let s := { s with done := set2 s.done n k true, running := set s.running k none, exited := set s.exited k none, log := .finish k n true :: s.log }
    (s, if k = .build then !(outOfDate g s n || !depsInstalled g s n) else true)
  | some n, some false => ({ s with ok := false, log := .finish k n false :: s.log }, true)
  | _, _ => (s, true)

/-- A process is running. Used in the model of `deptool.in:1302` (`wait`). -/
def alive (s : St) (k : Kind) : Bool := (s.running k).isSome && (s.exited k).isNone
/-- Used in the model of `deptool.in:1739-1772` (`rest`). -/
def anyAlive (s : St) : Bool := alive s .build || alive s .install || alive s .test

/-- `$children->wait(10)` with the functions called on exit (lines 1302, 1561, 1598). -/
def wait (s : St) (reaped : Kind → Option Bool) : St :=
  { s with exited := fun k => if alive s k then reaped k else s.exited k }

/-- Something was reaped. Used in the model of `deptool.in:1739-1772` (`rest`). -/
def anyReaped (s : St) (reaped : Kind → Option Bool) : Bool :=
  (alive s .build && (reaped .build).isSome) || (alive s .install && (reaped .install).isSome) || (alive s .test && (reaped .test).isSome)

/-- Not a function of the code; stands for the uses of `deptool.in:1726-1773`. -/
inductive Out where
  | more (s : St)
  /-- `depBuildParallel` returns. -/
  | returned (s : St)
  /-- Line 1777: exit(1). -/
  | failed (s : St)
  /-- Line 1741 dies: not making progress. -/
  | stuck (s : St)
  /-- Line 1647 dies: internal error. -/
  | internal (s : St)

/-- Lines 1727-1735: what is started in an iteration. -/
def startAll (g : Graph) (newer : Node → Bool) (s : St) : St :=
  let s := if (s.running .build).isSome then s else startBuild g newer s
  let s := if (s.running .install).isSome then s else startWhich .install s
  if (s.running .test).isSome then s else startWhich .test s

/-- Lines 1763-1768: the processes that have ended; the second part: nothing died. -/
def finishAll (g : Graph) (later : Kind → Nat) (s : St) : St × Bool :=
  let a := finish g .build (later .build) s
  let b := finish g .install (later .install) a.1
  let c := finish g .test (later .test) b.1
  (c.1, a.2 && b.2 && c.2)

/-- Lines 1739-1772. -/
def rest (g : Graph) (a : Answer) (s : St) : Out :=
  if s.pending.length = s.prev then
    if anyAlive s then
      if anyReaped s a.reaped then
        match finishAll g a.later (wait s a.reaped) with
        | (s', true) => .more { s' with prev := s'.pending.length }
        | (s', false) => .internal s'
      else .more { s with prev := s.pending.length }
    else .stuck s
  else .more { s with prev := s.pending.length }

/-- One iteration of the main loop, lines 1726-1773, and what follows it, lines 1775-1782. -/
def iter (g : Graph) (a : Answer) (s : St) : Out :=
  if s.pending = [] ∧ anyAlive s = false then
    if s.ok then .returned s else .failed s
  else if s.ok then rest g a (startAll g a.newer s)
  else if anyAlive s then rest g a s
  else .failed s

/-- The main loop for these answers. Not a function of the code; stands for the uses of `deptool.in:1684-1773`. -/
def runFrom (g : Graph) : List Answer → St → Out
  | [], s => .more s
  | a :: as, s =>
    match iter g a s with
    | .more s' => runFrom g as s'
    | o => o

/-- Lines 1713-1717: what is to be done. -/
def todo (nodes : List Node) (tests : Bool) : List (Node × Kind) :=
  nodes.flatMap fun n => (n, .build) :: ((if tests then [(n, .test)] else []) ++ [(n, .install)])

/-- The state before the loop; `last` is the time the program was started (line 186). -/
def start (nodes : List Node) (tests : Bool) (stamp : Node → Kind → Nat) (last : Nat) : St :=
  { pending := todo nodes tests, stamp := stamp, last := last, prev := (todo nodes tests).length }

end Verif.Deptool
