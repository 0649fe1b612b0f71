/-!
# deptool: running the tests of a directory (src/deptool.in, dbpDoParallelTest)

The tests are 1 to `n`. Which tests the patterns of `sequential_tests` match is given, pattern by pattern. Which processes `$children->wait()` reaps is up to the environment: the `k`-th call reaps those of the running tests that `env.ends k` names, and if there is none of these, the one started first (`wait()` without a time limit returns only when a child has ended, see Verif/PerlProc). Not modelled: reading what ctest prints (lines 1316-1427), `MAKE_PARALLELISM` that is not a number.
-/

namespace Verif.Deptool.Tests

/-- Not a function of the code; stands for the uses of `deptool.in:1429-1551`. -/
inductive Ev where
  | start (i : Nat)
  | finish (i : Nat)
deriving DecidableEq, Repr

/-- Used in the model of `deptool.in:1492-1494` (`waitBelow`). -/
structure Env where
  ends : Nat → List Nat
  passes : Nat → Bool

/-- `running` has the oldest first; the log has the newest event first; `waits` counts the calls of `wait`. Not a function of the code; stands for the uses of `deptool.in:1447-1495`. -/
structure St where
  running : List Nat := []
  log : List Ev := []
  waits : Nat := 0
deriving DecidableEq, Repr

/-- Lines 1447-1456. -/
def startTest (s : St) (i : Nat) : St := { s with running := s.running ++ [i], log := .start i :: s.log }

/-- The children that the call of `wait` reaps. Used in the model of `deptool.in:1492-1494` (`wait`). -/
def gone (env : Env) (s : St) : List Nat :=
  if (s.running.filter fun i => decide (i ∈ env.ends s.waits)) = [] then s.running.take 1 else s.running.filter fun i => decide (i ∈ env.ends s.waits)

/-- Used in the model of `deptool.in:1492-1494` (`waitBelow`). -/
def wait (env : Env) (s : St) : St :=
  { running := s.running.filter fun i => decide (i ∉ gone env s), log := ((gone env s).map Ev.finish).reverse ++ s.log, waits := s.waits + 1 }

/-- `while ($children->nChildren() >= $limit) { $children->wait(); }`, lines 1492-1494, and with limit 1 lines 1496-1500. -/
def waitBelow (env : Env) (limit : Nat) : Nat → St → St
  | 0, s => s
  | fuel + 1, s => if limit ≤ s.running.length then waitBelow env limit fuel (wait env s) else s

/-- Lines 1470-1480: the sequential tests; `none`: line 1479 dies. -/
def sequential (env : Env) : List Nat → List Nat → St → Option (List Nat × St)
  | [], seen, s => some (seen, s)
  | i :: is, seen, s =>
    if i ∈ seen then sequential env is seen s
    else
      if (wait env (startTest s i)).running = [] then sequential env is (i :: seen) (wait env (startTest s i)) else none

/-- Lines 1486-1495: the others, from the last to the first. -/
def parallel (env : Env) (par : Nat) (seen : List Nat) : Nat → St → St
  | 0, s => s
  | i + 1, s =>
    if i + 1 ∈ seen then parallel env par seen i s
    else parallel env par seen i (waitBelow env par (startTest s (i + 1)).running.length (startTest s (i + 1)))

/-- Lines 1462-1469: the numbers of the tests that the patterns match; `none`: line 1468 dies. -/
def matches? (n : Nat) (patterns : List (Nat → Bool)) : Option (List Nat) :=
  if patterns.all fun p => (List.range n).any fun i => p (i + 1) then some (patterns.flatMap fun p => ((List.range n).map (· + 1)).filter p) else none

/-- `dbpDoParallelTest`, lines 1429-1551: the log and the status it exits with, `none`: it dies. -/
def doTests (env : Env) (par n : Nat) (patterns : List (Nat → Bool)) : Option (List Ev × Nat) :=
  if n = 0 then none
  else
    match matches? n patterns with
    | none => none
    | some is =>
      match sequential env is [] {} with
      | none => none
      | some (seen, s) =>
        let s := parallel env par seen n s
        let s := waitBelow env 1 s.running.length s
        some (s.log, if (List.range n).all fun i => env.passes (i + 1) then 0 else 1)

end Verif.Deptool.Tests
