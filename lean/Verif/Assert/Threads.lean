/-!
# Assertions that fail in several threads

Model of `AssertBoostFail`, `/repo/src/AssertBoost.cpp:122-174`, where the threads of a program may fail at any time. The flag `assert_boost_fail_recurse` (line 78) is an ordinary variable; here each access to it is one step,
as on a machine where it is read and written whole (the language leaves such races undefined). The lists of hooks do not change meanwhile. A hook returns or throws an exception of the assertion, after which the thread goes on.
`abort()` ends the program. The sleep that may be asked for with an environment variable is left out.
-/

namespace Verif.Assert.Threads

/-- Used in the model of `AssertBoost.cpp:122-140` (`Hooks.of`). -/
inductive Hook where
  | returns | throws
deriving DecidableEq

/-- Where a thread is in the loop over the hooks, for each hook: lines 122-140 and 158-162. -/
inductive Stage where
  /-- before the test in the constructor, line 125 -/
  | check
  /-- before the flag is set, line 130 -/
  | set
  /-- before the hook is called -/
  | call
  /-- before the test in the destructor, line 133; whether the hook threw -/
  | done (threw : Bool)
  /-- before the flag is cleared, line 138 -/
  | clear (threw : Bool)
deriving DecidableEq

/-- Made of the parts of `AssertBoost.cpp:122-140`. -/
inductive PC where
  /-- outside -/
  | idle
  /-- before the test in line 147 -/
  | start
  /-- in the loop of line 158 (`post` false) or 167 -/
  | hook (post : Bool) (i : Nat) (s : Stage)
  /-- before the message, line 165 -/
  | message
  /-- before the test in line 166 -/
  | again
  /-- before `AssertBoostFailDie` -/
  | die
deriving DecidableEq

/-- What can be seen of a thread. Not a function of the code; stands for the uses of `AssertBoost.cpp:122-140`. -/
inductive Event where
  | called (post : Bool) (i : Nat)
  | message
  /-- the exception has left `AssertBoostFail` -/
  | back
deriving DecidableEq

/-- Used in the model of `AssertBoost.cpp:122-140` (`Hooks.of`). -/
structure Hooks where
  pre : List Hook
  post : List Hook

/-- Used in the model of `AssertBoost.cpp:122-140` (`PC`). -/
def Hooks.of (h : Hooks) (post : Bool) : List Hook := if post then h.post else h.pre

/-- After the loop. Made of the parts of `AssertBoost.cpp:122-140`. -/
def after (post : Bool) : PC := if post then .die else .message

/-- One step of a thread: the flag, where it is next, what is seen; `none` for the flag means that the program ends. Not a function of the code; stands for the uses of `AssertBoost.cpp:122-140`. -/
def step (h : Hooks) (flag : Bool) : PC → Option Bool × PC × List Event
  | .idle => (some flag, .idle, [])
  | .start => (some flag, if flag then .message else .hook false 0 .check, [])
  | .hook post i .check =>
    if i < (h.of post).length then (if flag then (none, .die, []) else (some flag, .hook post i .set, []))
    else (some flag, after post, [])
  | .hook post i .set => (some true, .hook post i .call, [])
  | .hook post i .call => (some flag, .hook post i (.done (decide ((h.of post)[i]? = some .throws))), [.called post i])
  | .hook post i (.done t) => if flag then (some flag, .hook post i (.clear t), []) else (none, .die, [])
  | .hook post i (.clear t) => (some false, if t then .idle else .hook post (i + 1) .check, if t then [.back] else [])
  | .message => (some flag, .again, [.message])
  | .again => (some flag, if flag then .die else .hook true 0 .check, [])
  | .die => (none, .die, [])

/-- Not a function of the code; stands for the uses of `AssertBoost.cpp:122-140`. -/
structure World where
  flag : Bool
  dead : Bool
  pc : Nat → PC
  /-- what was seen of each thread since it last failed -/
  seen : Nat → List Event

/-- Not a function of the code; stands for the uses of `AssertBoost.cpp:122-140`. -/
def World.start : World := ⟨false, false, fun _ => .idle, fun _ => []⟩

/-- Not a function of the code; stands for the uses of `AssertBoost.cpp:122-140`. -/
inductive Move where
  /-- an assertion fails in a thread -/
  | fail (t : Nat)
  /-- a thread does its next step -/
  | run (t : Nat)
deriving DecidableEq

/-- Used in the model of `AssertBoost.cpp:122-140` (`move`). -/
def upd {α : Type} (f : Nat → α) (t : Nat) (a : α) : Nat → α := fun u => if u = t then a else f u

/-- Made of the parts of `AssertBoost.cpp:122-140`. -/
def move (h : Hooks) (w : World) : Move → World
  | .fail t => if w.dead = false ∧ w.pc t = .idle then { w with pc := upd w.pc t .start, seen := upd w.seen t [] } else w
  | .run t =>
    if w.dead then w
    else
      match step h w.flag (w.pc t) with
      | (some f, pc, es) => { w with flag := f, pc := upd w.pc t pc, seen := upd w.seen t (w.seen t ++ es) }
      | (none, _, _) => { w with dead := true }

/-- Not a function of the code; stands for the uses of `AssertBoost.cpp:122-140`. -/
def run (h : Hooks) (ms : List Move) : World := ms.foldl (move h) World.start

end Verif.Assert.Threads
