import Verif.Deptool.Deps

/-! # deptool: the output of a command

Model of `getCmdOutput` (src/deptool.in:4139-4163): a command is started with three pipes, its standard output is read to the end, then its error output, then its end is awaited.

Simplified: the command writes one character at a time and does nothing else that matters; a pipe holds at most `cap` characters; the command closes its outputs when it ends, and leaves no process behind that keeps them open. Failures of `open3` and of the closes are left out. -/

namespace Verif.DepVC.CmdOut

open Verif.Deptool.Deps (Text)

/-- A write of the command. -/
inductive Wr where
  | out (c : Char)
  | err (c : Char)
deriving DecidableEq, Repr

/-- Where `getCmdOutput` is: in line 4150, in line 4151, in line 4153, behind it. -/
inductive CmdAt where
  | readOut
  | readErr
  | waiting
  | ended
deriving DecidableEq, Repr

/-- The command with what it is still going to write, the two pipes, and the caller with what it has read. -/
structure CmdSt where
  todo : List Wr
  pipeOut : Text
  pipeErr : Text
  pos : CmdAt
  gotOut : Text
  gotErr : Text
deriving DecidableEq, Repr

def cmdStart (w : List Wr) : CmdSt := ⟨w, [], [], .readOut, [], []⟩

/-- Who makes a step. -/
inductive Who where
  | command
  | caller
deriving DecidableEq, Repr

/-- One step; `none` if the one whose turn it is has to wait or has ended. The command waits while the pipe it writes to is full (lines 4147-4148 say so); a read gets a character, or the end if the pipe is empty and the command has ended; `waitpid` (line 4153) returns when the command has ended. -/
def cmdStep (cap : Nat) (s : CmdSt) : Who → Option CmdSt
  | .command =>
    match s.todo with
    | [] => none
    | .out c :: r => if s.pipeOut.length < cap then some { s with todo := r, pipeOut := s.pipeOut ++ [c] } else none
    | .err c :: r => if s.pipeErr.length < cap then some { s with todo := r, pipeErr := s.pipeErr ++ [c] } else none
  | .caller =>
    match s.pos with
    | .readOut =>
      match s.pipeOut with
      | c :: r => some { s with pipeOut := r, gotOut := s.gotOut ++ [c] }
      | [] => if s.todo = [] then some { s with pos := .readErr } else none
    | .readErr =>
      match s.pipeErr with
      | c :: r => some { s with pipeErr := r, gotErr := s.gotErr ++ [c] }
      | [] => if s.todo = [] then some { s with pos := .waiting } else none
    | .waiting => if s.todo = [] then some { s with pos := .ended } else none
    | .ended => none

/-- A schedule; a turn of one who has to wait passes. -/
def cmdRun (cap : Nat) (s : CmdSt) : List Who → CmdSt
  | [] => s
  | w :: ws => cmdRun cap ((cmdStep cap s w).getD s) ws

/-- `<$read>` in list context: the lines with their ends, lines 4150-4151. -/
def perlLines : Text → List Text
  | [] => []
  | c :: r =>
    if c = '\n' then ['\n'] :: perlLines r
    else
      match perlLines r with
      | [] => [[c]]
      | l :: ls => (c :: l) :: ls

/-- What the caller's caller gets. -/
inductive CmdRes where
  | lines (ls : List Text)
  | checkDied
  | cmdFailed
deriving DecidableEq, Repr

/-- Lines 4157-4161: first the check, which may die, then the status. -/
def cmdResult (status : Nat) (check : List Text → List Text → Bool) (s : CmdSt) : CmdRes :=
  if check (perlLines s.gotOut) (perlLines s.gotErr) then
    if status = 0 then .lines (perlLines s.gotOut) else .cmdFailed
  else .checkDied

end Verif.DepVC.CmdOut
