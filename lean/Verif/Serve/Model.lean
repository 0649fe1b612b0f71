/-!
# A server for untested changes: `deptool mtnserve --push-to`

The three parties of `mtnServeGeneral` and `mtnServePushTo` in `/repo/src/deptool.in`: the monotone server, the hook that it runs (`lintel-flock` with `push_to.sh`) when it got something new, and the
process that rebuilds, tests and pushes. They share the files `next-sync-id` and `to-push-*.db`, a lock on the first of them, and the signal USR1. Every interleaving of their steps is a list of moves.

A database is known by the number of updates it has (`Nat`); that `cp` of a database in use may give a torn copy is not modelled, nor are disks that are full. A signal sets the flag at once, and
interrupts a `flock` that waits (perl does not start it again). What `deptool checkout`, `pull` and `publish` do is the answer `ok` with the lines of heads that were printed.
-/

namespace Verif.Serve

/-- Characters. Part of the model of `deptool.in:2297-2418`. -/
abbrev Txt := List Char

/-- A hook that has the lock, `deptool.in:2306-2311`, run by lines 2312-2321: it has just got it, has read the number, or has copied the database. -/
inductive Hook where
  | none
  | got
  | read (id : Txt)
  | copied
deriving DecidableEq, Repr

/-- Where the pushing process is, `deptool.in:2356-2418`. -/
inductive Pc where
  /-- lines 2358-2369 -/
  | wait
  /-- line 2362, in the script of lines 2306-2311 -/
  | script
  | scriptRead (id : Txt)
  | scriptCopied
  /-- lines 2363-2365 -/
  | sig
  /-- after line 2373, before it has the lock -/
  | cleared
  /-- waiting for the lock, line 2376 -/
  | blocked
  /-- after line 2380 -/
  | bumped (id : Nat)
  /-- lines 2384-2399 -/
  | testing
deriving DecidableEq, Repr

/-- Why the process has died: `deptool.in:2382`, `Lock.pm:99-101`, `deptool.in:2403`. -/
inductive Death where
  | missing
  | interrupted
  | noHeads
deriving DecidableEq, Repr

/-- What has happened: a signal of a hook, of the script that is run again, a finished test of a database. Used to say what `deptool.in:2333-2442` does. -/
inductive Ev where
  | hook
  | again
  | test (v : Nat) (ok : Bool) (heads : Txt)
deriving DecidableEq, Repr

/-- The variables of `deptool.in:2333-2356`, the files of lines 2300-2311 and the server. `recv` counts the updates in `serve.db`, `waiting` the hooks without lock. -/
structure S where
  recv : Nat
  waiting : Nat
  hook : Hook
  /-- the text in `next-sync-id` -/
  id : Txt
  /-- the files `to-push-*.db` -/
  files : Txt → Option Nat
  updated : Bool
  pc : Pc
  /-- `$push_count` -/
  count : Nat
  /-- `$failure_count` -/
  fails : Nat
  /-- `$last_heads` -/
  last : Txt
  /-- `dbs/to-push.db` -/
  db : Nat
  dead : Option Death
  log : List Ev

/-- `deptool.in:2300-2301`, `2336-2355`. -/
def start : S := ⟨0, 0, .none, ['0'], fun _ => none, false, .wait, 0, 0, [], 0, none, []⟩

/-- The steps. Part of the model of `deptool.in:2297-2418`. -/
inductive Move where
  | recv
  | hookLock
  | hookRead
  | hookCopy
  | hookKill
  | retry
  | retryRead
  | retryCopy
  | retryKill
  | wake
  | lock
  | take
  | finish (ok : Bool) (heads : List Txt)
deriving DecidableEq, Repr

/-- A number as perl prints it. Used in the model of `deptool.in:2379`, `2382` (`lockStep`, `take`). -/
def num (n : Nat) : Txt := Nat.toDigits 10 n

/-- Text written at the start of a file that keeps what it has beyond, `deptool.in:2378-2379`. -/
def over (new old : Txt) : Txt := new ++ old.drop new.length

/-- `cp` to `to-push-ID.db`, `deptool.in:2309`. -/
def put (files : Txt → Option Nat) (id : Txt) (v : Option Nat) : Txt → Option Nat := fun x => if x = id then v else files x

/-- The lock is taken and the number raised, `deptool.in:2374-2381`; if a hook has the lock the process waits. -/
def lockStep (s : S) : S :=
  if s.hook = .none then { s with pc := .bumped s.count, count := s.count + 1, id := over (num (s.count + 1)) s.id }
  else { s with pc := .blocked }

/-- The database is taken over, `deptool.in:2382-2383`. -/
def take (s : S) (k : Nat) : S :=
  match s.files (num k) with
  | none => { s with dead := some .missing }
  | some v => { s with files := put s.files (num k) none, db := v, pc := .testing }

/-- The result of a test, `deptool.in:2401-2418`. -/
def finish (s : S) (ok : Bool) (heads : List Txt) : S :=
  if heads.isEmpty then { s with dead := some .noHeads }
  else
    let new := heads.flatten
    let fails := if ok then 0 else (if s.last = new then s.fails else 0) + 1
    { s with fails := fails, last := new, pc := .wait, log := s.log ++ [.test s.db ok new] }

/-- One step, if it is possible; `deptool.in:2306-2321` (hooks), `2358-2369` (waiting), `2370-2418` (the rest). -/
def step (s : S) (m : Move) : Option S :=
  if s.dead.isSome then none
  else match m, s.hook, s.pc with
    | .recv, _, _ => some { s with recv := s.recv + 1, waiting := s.waiting + 1 }
    | .hookLock, .none, _ => if s.waiting = 0 then none else some { s with waiting := s.waiting - 1, hook := .got }
    | .hookRead, .got, _ => some { s with hook := .read s.id }
    | .hookCopy, .read id, _ => some { s with hook := .copied, files := put s.files id (some s.recv) }
    | .hookKill, .copied, pc =>
      some { s with hook := .none, updated := true, log := s.log ++ [.hook], dead := if pc = .blocked then some .interrupted else none }
    | .retry, _, .wait => if s.updated = false ∧ 0 < s.fails ∧ s.fails < 5 then some { s with pc := .script } else none
    | .retryRead, _, .script => some { s with pc := .scriptRead s.id }
    | .retryCopy, _, .scriptRead id => some { s with pc := .scriptCopied, files := put s.files id (some s.recv) }
    | .retryKill, _, .scriptCopied => some { s with pc := .sig, updated := true, log := s.log ++ [.again] }
    | .wake, _, .wait => if s.updated then some { s with pc := .cleared, updated := false } else none
    | .wake, _, .sig => if s.updated then some { s with pc := .cleared, updated := false } else none
    | .lock, _, .cleared => some (lockStep s)
    | .take, _, .bumped k => some (take s k)
    | .finish ok heads, _, .testing => some (finish s ok heads)
    | _, _, _ => none

/-- Steps one after the other, `deptool.in:2333-2442` with the server and its hooks. -/
def run : S → List Move → Option S
  | s, [] => some s
  | s, m :: ms => match step s m with
    | none => none
    | some s => run s ms

end Verif.Serve
