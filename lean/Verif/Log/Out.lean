/-!
# Model of the output of `LintelLog`

`/repo/src/LintelLog.cpp:116-219`, `/repo/include/Lintel/LintelLog.hpp`. Threads are numbered; `pc` says where a thread is. The instance exists (that is `InitModel`). The mutex is
a default pthread mutex: a thread that locks it while another holds it waits, and one that holds it already waits for ever.

An appender is one that the user wrote, which only takes note of the message, or one of the two of the class. What the user's appender does itself is not modelled, except that it may
call `log` or `addAppender` (`Move.nested`). `cout` is a buffer that goes to the terminal when the library likes (`Move.spill`), or on `flush`; `cerr` goes there at once. Both are
the same terminal. Text is a list of characters. The fields `lin` and `events` are not in the code: they record what happened.
-/

namespace Verif.Log.Out

/-- Used in the model of `LintelLog.cpp:154-164` (`typeName`). -/
abbrev Txt := List Char

/-- `LogType`, `LintelLog.hpp:138`. -/
inductive Ty where
  | report | debug | info | warn | error
deriving DecidableEq, Repr

/-- Used in the model of `LintelLog.cpp:166-180` (`consoleWrite`). -/
structure Msg where
  text : Txt
  ty : Ty
deriving DecidableEq, Repr

/-- Used in the model of `LintelLog.cpp:213` (`State.give`). -/
inductive App where
  | user (i : Nat)
  | console
  | timed
deriving DecidableEq, Repr

/-- A decimal number, as `%d` writes it. Used in the model of `LintelLog.cpp:182-200` (`timeText`). -/
def decimal (n : Nat) : Txt := if n < 10 then [Char.ofNat (48 + n)] else decimal (n / 10) ++ [Char.ofNat (48 + n % 10)]

/-- `logTypeToString`, `LintelLog.cpp:154-164`. -/
def typeName : Ty → Txt
  | .report => []
  | .debug => "DEBUG".toList
  | .info => "INFO".toList
  | .warn => "WARN".toList
  | .error => "ERROR".toList

/-- What a console appender does to `cout` and `cerr`. Used in the model of `LintelLog.cpp:166-180` (`consoleWrite`). -/
inductive Write where
  /-- `cout <<` -/
  | out (t : Txt)
  /-- `cout.flush(); cerr <<` … `endl` -/
  | err (t : Txt)

/-- `consoleAppender`, `LintelLog.cpp:166-180`. -/
def consoleWrite (m : Msg) : Write :=
  match m.ty with
  | .report => .out (m.text ++ "\n".toList)
  | .debug | .info => .out (typeName m.ty ++ ": ".toList ++ m.text ++ "\n".toList)
  | .warn | .error => .err (typeName m.ty ++ ": ".toList ++ m.text ++ "\n".toList)

/-- The time as `consoleTimeAppender` writes it. Used in the model of `LintelLog.cpp:182-200` (`timedWrite`). -/
def timeText (sec usec : Nat) : Txt := decimal sec ++ ".".toList ++ decimal usec

/-- `consoleTimeAppender`, `LintelLog.cpp:182-200`; `sec` and `usec` are what `gettimeofday` gave. -/
def timedWrite (sec usec : Nat) (m : Msg) : Write :=
  match m.ty with
  | .report => .out (m.text ++ "\n".toList)
  | .debug | .info => .out (typeName m.ty ++ " @".toList ++ timeText sec usec ++ ": ".toList ++ m.text ++ "\n".toList)
  | .warn | .error => .err (typeName m.ty ++ " @".toList ++ timeText sec usec ++ ": ".toList ++ m.text ++ "\n".toList)

/-- Where a thread is. Used in the model of `LintelLog.cpp:213` (`State`). -/
inductive PC where
  | idle
  /-- before `lock` in `log`, line 211 -/
  | wantLog (m : Msg)
  /-- in the loop of lines 215-218, or at line 213; what is left to call -/
  | logging (m : Msg) (rest : List App)
  /-- before `lock` in `addAppender`, line 142 -/
  | wantAdd (a : App)
  /-- before `push_back`, line 143 -/
  | adding (a : App)
  /-- before `unlock` of `addAppender`, line 144 -/
  | added (a : App)
  /-- an appender that this thread is in has called `log` or `addAppender`; the message and what would be left to call -/
  | nested (m : Msg) (rest : List App)
deriving DecidableEq

/-- A call of the library. Not a function of the code; stands for the uses of `LintelLog.cpp:166-213`. -/
inductive Act where
  | log (t : Nat) (m : Msg)
  | add (t : Nat) (a : App)
deriving DecidableEq

/-- What the appenders and the callers see. Not a function of the code; stands for the uses of `LintelLog.cpp:213-213`. -/
inductive Event where
  | call (x : Act)
  | give (t : Nat) (m : Msg) (a : App) (sec usec : Nat)
  | ret (x : Act)
deriving DecidableEq

/-- Not a function of the code; stands for the uses of `LintelLog.cpp:213-213`. -/
structure State where
  holder : Option Nat
  apps : List App
  pc : Nat → PC
  /-- what `cout` has not written yet -/
  buf : Txt
  term : Txt
  lin : List Act
  events : List Event

/-- Not a function of the code; stands for the uses of `LintelLog.cpp:213-213`. -/
def init : State := { holder := none, apps := [], pc := fun _ => .idle, buf := [], term := [], lin := [], events := [] }

/-- Used in the model of `LintelLog.cpp:212-218` (`step`). -/
def State.goto (s : State) (t : Nat) (p : PC) : State := { s with pc := fun u => if u = t then p else s.pc u }

/-- Used in the model of `LintelLog.cpp:213` (`State.give`). -/
def State.note (s : State) (e : Event) : State := { s with events := s.events ++ [e] }

/-- Used in the model of `LintelLog.cpp:213` (`State.give`). -/
def State.write (s : State) : Write → State
  | .out x => { s with buf := s.buf ++ x }
  | .err x => { s with buf := [], term := s.term ++ s.buf ++ x }

/-- Calling an appender, lines 213 and 217. -/
def State.give (s : State) (t : Nat) (m : Msg) (sec usec : Nat) (a : App) : State :=
  let s := s.note (.give t m a sec usec)
  match a with
  | .user _ => s
  | .console => s.write (consoleWrite m)
  | .timed => s.write (timedWrite sec usec m)

/-- What `log` calls, lines 212-218. -/
def toCall (apps : List App) : List App := if apps.isEmpty then [.console] else apps

/-- Not a function of the code; stands for the uses of `LintelLog.cpp:166-218`. -/
inductive Move where
  | log (t : Nat) (m : Msg)
  | add (t : Nat) (a : App)
  /-- thread `t` goes on; `gettimeofday` gives `sec` and `usec` -/
  | step (t sec usec : Nat)
  /-- the appender that thread `t` is about to call will call `log` or `addAppender` -/
  | nested (t sec usec : Nat)
  /-- `cout` writes the first `n` characters of its buffer -/
  | spill (n : Nat)

/-- Not a function of the code; stands for the uses of `LintelLog.cpp:212-218`. -/
def step (s : State) : Move → State
  | .log t m => if s.pc t = .idle then (s.goto t (.wantLog m)).note (.call (.log t m)) else s
  | .add t a => if s.pc t = .idle then (s.goto t (.wantAdd a)).note (.call (.add t a)) else s
  | .step t sec usec =>
    match s.pc t with
    | .idle | .nested _ _ => s
    | .wantLog m => if s.holder = none then { s.goto t (.logging m (toCall s.apps)) with holder := some t, lin := s.lin ++ [.log t m] } else s
    | .logging m (a :: rest) => (s.give t m sec usec a).goto t (.logging m rest)
    | .logging m [] => ({ s with holder := none }.goto t .idle).note (.ret (.log t m))
    | .wantAdd a => if s.holder = none then { s.goto t (.adding a) with holder := some t, lin := s.lin ++ [.add t a] } else s
    | .adding a => { s with apps := s.apps ++ [a] }.goto t (.added a)
    | .added a => ({ s with holder := none }.goto t .idle).note (.ret (.add t a))
  | .nested t sec usec =>
    match s.pc t with
    | .logging m (.user i :: rest) => (s.give t m sec usec (.user i)).goto t (.nested m rest)
    | _ => s
  | .spill n => { s with buf := s.buf.drop n, term := s.term ++ s.buf.take n }

/-- Not a function of the code; stands for the uses of `LintelLog.cpp:166-218`. -/
def run (ms : List Move) : State := ms.foldl step init

end Verif.Log.Out
