import Verif.Log.Out

/-! # What logging should do -/

namespace Verif.Log.Out

def Act.thread : Act → Nat
  | .log t _ => t
  | .add t _ => t

/-- The calls that thread `t` made, in order. -/
def called (t : Nat) (es : List Event) : List Act := es.filterMap fun
  | .call x => if x.thread = t then some x else none
  | _ => none

/-- The calls of thread `t` that returned. -/
def returned (t : Nat) (es : List Event) : List Act := es.filterMap fun
  | .ret x => if x.thread = t then some x else none
  | _ => none

/-- What the appenders were called with, in order. -/
def given (es : List Event) : List (Msg × App) := es.filterMap fun
  | .give _ m a _ _ => some (m, a)
  | _ => none

/-- One call after the other: each message goes to all the appenders there are, in the order they were added, or to the console if there is none. -/
def oneByOne : List App → List Act → List (Msg × App)
  | _, [] => []
  | [], .log _ m :: l => (m, .console) :: oneByOne [] l
  | a :: as, .log _ m :: l => ((a :: as).map fun x => (m, x)) ++ oneByOne (a :: as) l
  | as, .add _ a :: l => oneByOne (as ++ [a]) l

/-- `DEBUG`, `INFO`, `WARN` or `ERROR`. -/
def Ty.name : Ty → String
  | .report => ""
  | .debug => "DEBUG"
  | .info => "INFO"
  | .warn => "WARN"
  | .error => "ERROR"

/-- The line of a message on the console, `LintelLog.hpp:263-268`. -/
def line (m : Msg) : Txt := (if m.ty = .report then "" else m.ty.name ++ ": ").toList ++ m.text ++ ['\n']

/-- The line with the time, `LintelLog.hpp:271-273`. -/
def timedLine (sec usec : Nat) (m : Msg) : Txt :=
  (if m.ty = .report then [] else m.ty.name.toList ++ [' ', '@'] ++ decimal sec ++ ['.'] ++ decimal usec ++ [':', ' ']) ++ m.text ++ ['\n']

/-- What the calls of appenders put on the terminal. -/
def screen : List Event → Txt
  | [] => []
  | .give _ m .console _ _ :: l => line m ++ screen l
  | .give _ m .timed sec usec :: l => timedLine sec usec m ++ screen l
  | _ :: l => screen l

/-- The calls of thread `t` among others. -/
def ofThread (t : Nat) (l : List Act) : List Act := l.filter fun x => x.thread = t

/-- A warning or an error that a console appender was given. -/
def Urgent : Event → Prop
  | .give _ m a _ _ => (m.ty = .warn ∨ m.ty = .error) ∧ (a = .console ∨ a = .timed)
  | _ => False

/-- Nobody is in the library. -/
def Quiet (s : State) : Prop := ∀ t, s.pc t = .idle

/-- No appender called the library. -/
def NoNested (ms : List Move) : Prop := ∀ mv ∈ ms, ∀ t sec usec, mv ≠ .nested t sec usec

/-- The value of a decimal number. -/
def digitsValue (t : Txt) : Nat := t.foldl (fun n c => 10 * n + (c.toNat - 48)) 0

/-- The value of a number with a decimal point. -/
def value (t : Txt) : Rat :=
  let whole := t.takeWhile (· ≠ '.')
  let frac := (t.dropWhile (· ≠ '.')).drop 1
  digitsValue whole + (digitsValue frac : Rat) / 10 ^ frac.length

end Verif.Log.Out
