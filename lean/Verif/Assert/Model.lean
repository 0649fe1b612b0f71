/-!
# Failed assertions

`/repo/src/AssertBoost.cpp` and the macros of `/repo/include/Lintel/AssertBoost.hpp`, for one thread. A hook is a number; `bodies` says what each
hook does. What is printed and which hook is called with what is kept in a log. Simplified: texts are numbers; `AssertBoostFailDie`
dies; the sleep on recursion (`LINTEL_ASSERT_BOOST_RECURSE_SLEEP`) is left out.
-/

namespace Verif.Assert

/-- Where an assertion stands: expression, file and line. Used in the model of `AssertBoost.cpp:158-162` (`runHooks`). -/
abbrev Site := Nat

/-- The text that reaches hooks and output: the one given, one of the three texts of `AssertBoost.cpp:183-189`, or
`Exception evaluating …` (`AssertBoost.hpp:86,105`). -/
inductive Text where
  | given (n : Nat)
  | tooMany
  | tooFew
  | unknown
  | evaluating
deriving DecidableEq, Repr

/-- The message argument of the macro: a string, a format with its outcome when turned into a string, or an expression that
throws while it is evaluated. Used in the model of `AssertBoost.cpp:158-162` (`runHooks`). -/
inductive Msg where
  | str (n : Nat)
  | format (n : Nat)
  | formatTooMany
  | formatTooFew
  | formatThrows
  | throwsStd
  | throwsOther
deriving DecidableEq, Repr

/-- Used in the model of `AssertBoost.cpp:178-192` (`Msg.text`). -/
inductive Exc where
  | ab (site : Site) (t : Text)  -- AssertBoostException
  | std                          -- any other std::exception
  | other                        -- not a std::exception
deriving DecidableEq, Repr

/-- What a hook's body does. Not a function of the code; stands for the uses of `AssertBoost.cpp:142-176`. -/
inductive Act where
  | say (n : Nat)
  | check (holds : Bool) (site : Site) (m : Msg)  -- an INVARIANT in the hook
  | throwAB                                      -- AssertBoostThrowExceptionFn on the hook's own arguments
  | throw (e : Exc)
  | addPre (h : Nat)
  | addPost (h : Nat)
  | clear
deriving DecidableEq, Repr

/-- Not a function of the code; stands for the uses of `AssertBoost.cpp:183-189`. -/
inductive Ev where
  | call (h : Nat) (site : Site) (t : Text)
  | said (n : Nat)
  | banner (site : Site) (t : Text)      -- AssertBoostFailOutput
  | recursing (site : Site)              -- "Recursing on assertions, you have a bad hook"
  | badFlag                              -- "unexpected value for recurse flag"
deriving DecidableEq, Repr

/-- Not a function of the code; stands for the uses of `AssertBoost.cpp:142-176`. -/
structure State where
  pre : List Nat := []
  post : List Nat := []
  flag : Bool := false
  log : List Ev := []
deriving DecidableEq, Repr

/-- Used in the model of `AssertBoost.cpp:158-162` (`runHooks`). -/
def State.emit (s : State) (e : Ev) : State := { s with log := s.log ++ [e] }

/-- How a call ends. Not a function of the code; stands for the uses of `AssertBoost.cpp:142-176`. -/
inductive Out where
  | ret
  | died
  | threw (e : Exc)
  | ub
deriving DecidableEq, Repr

/-- The vector being iterated over. Used in the model of `AssertBoost.cpp:158-162` (`runHooks`). -/
inductive Which where
  | pre
  | post
deriving DecidableEq, Repr

/-- The body of a hook called with `site` and `t` while `w` is iterated over. `nested` is a failed INVARIANT. Changing the vector that is
iterated over is undefined (with spare capacity in the vector an addition is not; simplified). Used in the model of `AssertBoost.cpp:158-162` (`runHooks`). -/
def runActs (nested : Site → Msg → State → Out × State) (w : Which) (site : Site) (t : Text) : List Act → State → Out × State
  | [], s => (.ret, s)
  | .say n :: as, s => runActs nested w site t as (s.emit (.said n))
  | .check true _ _ :: as, s => runActs nested w site t as s
  | .check false si m :: as, s =>
    match nested si m s with
    | (.ret, s') => runActs nested w site t as s'
    | r => r
  | .throwAB :: _, s => (.threw (.ab site t), s)
  | .throw e :: _, s => (.threw e, s)
  | .addPre h :: as, s => if w = .pre then (.ub, s) else runActs nested w site t as { s with pre := s.pre ++ [h] }
  | .addPost h :: as, s => if w = .post then (.ub, s) else runActs nested w site t as { s with post := s.post ++ [h] }
  | .clear :: _, s => (.ub, s)

/-- The loops of `AssertBoost.cpp:158-162` and `167-171`, each hook inside an `AssertBoostCleanupRecurse` (122-140). -/
def runHooks (bodies : Nat → List Act) (nested : Site → Msg → State → Out × State) (w : Which) (site : Site) (t : Text) :
    List Nat → State → Out × State
  | [], s => (.ret, s)
  | h :: hs, s =>
    if s.flag then (.died, s.emit .badFlag)
    else
      match runActs nested w site t (bodies h) { s with flag := true, log := s.log ++ [.call h site t] } with
      | (.ret, s') => if s'.flag then runHooks bodies nested w site t hs { s' with flag := false } else (.died, s'.emit .badFlag)
      | (.threw e, s') => if s'.flag then (.threw e, { s' with flag := false }) else (.died, s'.emit .badFlag)
      | r => r

/-- What follows the message, `AssertBoost.cpp:165-174`. -/
def failTail (bodies : Nat → List Act) (nested : Site → Msg → State → Out × State) (site : Site) (t : Text) (s : State) : Out × State :=
  let s := s.emit (.banner site t)
  if s.flag then (.died, s)
  else
    match runHooks bodies nested .post site t s.post s with
    | (.ret, s') => (.died, s')
    | r => r

/-- `AssertBoostFail` on a string, `AssertBoost.cpp:142-176`. -/
def fail (bodies : Nat → List Act) (nested : Site → Msg → State → Out × State) (site : Site) (t : Text) (s : State) : Out × State :=
  if s.flag then failTail bodies nested site t (s.emit (.recursing site))
  else
    match runHooks bodies nested .pre site t s.pre s with
    | (.ret, s') => failTail bodies nested site t s'
    | r => r

/-- The text made from the message, `AssertBoost.cpp:178-192`; `none` when evaluating it throws before `AssertBoostFail` is called, with
a `std::exception` or not. -/
def Msg.text : Msg → Except Exc Text
  | .str n => .ok (.given n)
  | .format n => .ok (.given n)
  | .formatTooMany => .ok .tooMany
  | .formatTooFew => .ok .tooFew
  | .formatThrows => .ok .unknown
  | .throwsStd => .error .std
  | .throwsOther => .error .other

/-- The `try` block of the macros `FATAL_ERROR` and `INVARIANT`, `AssertBoost.hpp:80-87, 99-106`. -/
def macroFail (bodies : Nat → List Act) (nested : Site → Msg → State → Out × State) (site : Site) (m : Msg) (s : State) : Out × State :=
  let r : Out × State := match m.text with
    | .ok t => fail bodies nested site t s
    | .error e => (.threw e, s)
  match r with
  | (.threw .std, s') => fail bodies nested site .evaluating s'
  | r => r

/-- A failed INVARIANT, with at most `fuel` inside each other. Used in the model of `AssertBoost.hpp:95-108` (`invariant`). -/
def failed (bodies : Nat → List Act) : Nat → Site → Msg → State → Out × State
  | 0, _, _, s => (.ub, s)
  | fuel + 1, site, m, s => macroFail bodies (failed bodies fuel) site m s

/-- `INVARIANT(holds, m)`, `AssertBoost.hpp:95-108`. Two levels are enough, see `failed_levels`. -/
def invariant (bodies : Nat → List Act) (holds : Bool) (site : Site) (m : Msg) (s : State) : Out × State :=
  if holds then (.ret, s) else failed bodies 2 site m s

/-- The calls a program makes. `AssertBoost.cpp:61-76`. -/
inductive Op where
  | before (h : Nat)   -- AssertBoostFnBefore, AssertBoost.cpp:61-63
  | after (h : Nat)    -- AssertBoostFnAfter, AssertBoost.cpp:65-71
  | clearFns           -- AssertBoostClearFns, AssertBoost.cpp:73-76
  | check (holds : Bool) (site : Site) (m : Msg)
deriving DecidableEq, Repr

/-- A program that catches every exception and goes on; `none` once it has died (or its behaviour is undefined). Not a function of the code; stands for the uses of `AssertBoost.hpp:95-108`. -/
def run (bodies : Nat → List Act) : State → List Op → Option State
  | s, [] => some s
  | s, .before h :: ops => run bodies { s with pre := s.pre ++ [h] } ops
  | s, .after h :: ops => run bodies { s with post := s.post ++ [h] } ops
  | s, .clearFns :: ops => run bodies { s with pre := [], post := [] } ops
  | s, .check holds site m :: ops =>
    match invariant bodies holds site m s with
    | (.ret, s') => run bodies s' ops
    | (.threw _, s') => run bodies s' ops
    | _ => none

end Verif.Assert
