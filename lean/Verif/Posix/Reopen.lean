/-!
# `freopen64` (`/repo/src/stdio_64.cpp:36-77`)

The table of descriptors of a process, the open files behind them, and one stream of the C
library. Files are never removed. The mode is given by what it asks for (see C115 for the
characters). Simplified: the stream is one that writes, or one that reads a file that can be
positioned; what it has read ahead is dropped by `fflush`.
-/

namespace Verif.Posix.Reopen

/-- A file as the system has it open: its name, where it stands, and whether it may be written. Used in the model of `stdio_64.cpp:50-53` (`open`). -/
structure Desc where
  name : Nat
  pos : Nat
  writes : Bool
deriving DecidableEq, Repr

/-- The process: for every descriptor the open file, all files opened so far, and the contents of the files by name. Used in the model of `stdio_64.cpp:64-77` (`freopen64`). -/
structure Sys where
  tab : List (Option Nat)
  descs : List Desc
  files : Nat → Option (List Nat)

/-- A stream: its descriptor, what was written into it and not yet passed on, and whether the C library lets it be written. Used in the model of `stdio_64.cpp:65` (`FILE *file`). -/
structure Stream where
  fd : Nat
  pend : List Nat
  writes : Bool
deriving DecidableEq, Repr

/-- What the system does in one call: whether `open` is permitted, and whether `fdopen`, the writing in `fflush` and `dup2` succeed. Used in the model of `stdio_64.cpp:64-77` (`freopen64`). -/
structure Env where
  openOk : Bool
  fdopenOk : Bool
  flushOk : Bool
  dupOk : Bool
deriving DecidableEq, Repr

/-- The first descriptor that is not used. Used in the model of `stdio_64.cpp:50-53` (`open`). -/
def freeFd : List (Option Nat) → Option Nat
  | [] => none
  | none :: _ => some 0
  | some _ :: t => (freeFd t).map (· + 1)

/-- Whether `open` works: for reading the file must be there. Used in the model of `stdio_64.cpp:50-53` (`open`). -/
def mayOpen (e : Env) (s : Sys) (name : Nat) (wr : Bool) : Bool :=
  e.openOk && (wr || (s.files name).isSome)

/-- The system's `open`, `stdio_64.cpp:50-53`: a file opened for writing is made or emptied. -/
def openFile (e : Env) (s : Sys) (name : Nat) (wr : Bool) : Option Nat × Sys :=
  match freeFd s.tab with
  | none => (none, s)
  | some fd =>
    if mayOpen e s name wr then
      (some fd, { tab := s.tab.set fd (some s.descs.length)
                  descs := s.descs ++ [⟨name, 0, wr⟩]
                  files := fun n => if n = name && wr then some [] else s.files n })
    else (none, s)

/-- `fopen64` behind the checks of the mode, `stdio_64.cpp:50-61`: when `fdopen` fails the descriptor stays open. -/
def fopen64 (e : Env) (s : Sys) (name : Nat) (wr : Bool) : Option Nat × Sys :=
  match openFile e s name wr with
  | (none, s1) => (none, s1)
  | (some fd, s1) => if e.fdopenOk then (some fd, s1) else (none, s1)

/-- A file after `bs` was written at `pos`; what lies between its end and there is zero. Used in the model of `stdio_64.cpp:70` (`fflush`). -/
def writeAt (c : List Nat) (pos : Nat) (bs : List Nat) : List Nat :=
  c.take pos ++ List.replicate (pos - c.length) 0 ++ bs ++ c.drop (pos + bs.length)

/-- `fflush`, `stdio_64.cpp:70`: what waits goes to the file of the stream's descriptor; if that fails it keeps waiting. The result is not looked at. -/
def flush (e : Env) (s : Sys) (f : Stream) : Sys × Stream :=
  if f.pend = [] then (s, f)
  else if e.flushOk then
    match (s.tab[f.fd]?).join with
    | none => (s, f)
    | some d =>
      match s.descs[d]? with
      | none => (s, f)
      | some o =>
        ({ s with
            descs := s.descs.set d { o with pos := o.pos + f.pend.length }
            files := fun n => if n = o.name then some (writeAt ((s.files n).getD []) o.pos f.pend) else s.files n },
         { f with pend := [] })
  else (s, f)

/-- `freopen64`, `stdio_64.cpp:64-77`: whether the stream is returned, the system, and the stream. -/
def freopen64 (e : Env) (s : Sys) (name : Nat) (wr : Bool) (f : Stream) : Bool × Sys × Stream :=
  match fopen64 e s name wr with
  | (none, s1) => (false, s1, f)
  | (some fd, s1) =>
    let (s2, f2) := flush e s1 f
    if e.dupOk then (true, { s2 with tab := s2.tab.set f.fd (s2.tab[fd]?).join }, f2)
    else (false, s2, f2)

/-- Some calls of `freopen64` for the same stream, one after the other, and what they returned. Used in the model of `stdio_64.cpp:64-77` (`freopen64`). -/
def reopens (s : Sys) (f : Stream) : List (Env × Nat × Bool) → List Bool × Sys × Stream
  | [] => ([], s, f)
  | (e, name, wr) :: rest =>
    let (b, s1, f1) := freopen64 e s name wr f
    let (bs, s2, f2) := reopens s1 f1 rest
    (b :: bs, s2, f2)

end Verif.Posix.Reopen
