import Verif.Res

/-!
# Model of the check for frequency scaling

`/repo/src/Clock.cpp:56-128`. The contents of `/sys/devices/system/cpu` are an input: the names in the order of `readdir`, and what the three files of each hold. Text is without zero bytes. The directory
is left open on an early return (line 99), which is not modelled.
-/

namespace Verif.Clock.Scaling

open Verif

/-- `readFileLine`, `Clock.cpp:57-73`: `none` is a file that cannot be opened. `fgets` reads at most 79 bytes, and up to the end of the line. -/
def readFileLine : Option (List Char) → Res (List Char)
  | none => .ok []
  | some text =>
    let buf := text.take 79
    match buf.findIdx? (· = '\n') with
    | some i => .ok (buf.take i)
    | none => .abort

/-- An entry of the directory with its files. Used in the model of `Clock.cpp:85-107` (`loop`). -/
structure Entry where
  name : List Char
  minFreq : Option (List Char)
  maxFreq : Option (List Char)
  governor : Option (List Char)

/-- `strncmp(ent->d_name, "cpu", 3) == 0 && isdigit(ent->d_name[3])`, `Clock.cpp:88-89`. -/
def isCpu (name : List Char) : Bool :=
  match name with
  | 'c' :: 'p' :: 'u' :: d :: _ => decide ('0' ≤ d ∧ d ≤ '9')
  | _ => false

/-- The loop of `Clock.cpp:85-107`, with the number of processors so far. -/
def loop : Nat → List Entry → Res Bool
  | n, [] => if n = 0 then .abort else .ok false
  | n, e :: l =>
    if isCpu e.name then
      match readFileLine e.minFreq with
      | .ok lo =>
        match readFileLine e.maxFreq with
        | .ok hi =>
          match readFileLine e.governor with
          | .ok gov => if gov = "performance".toList ∨ (lo ≠ [] ∧ lo = hi) then loop (n + 1) l else .ok true
          | .abort => .abort
          | .ub => .ub
        | .abort => .abort
        | .ub => .ub
      | .abort => .abort
      | .ub => .ub
    else loop n l

/-- `doCFPFS`, `Clock.cpp:76-107`: `none` is a directory that cannot be opened. -/
def doCFPFS : Option (List Entry) → Res Bool
  | none => .ok true
  | some l => loop 0 l

/-- `Clock::AllowUnsafeFreqScalingOpt` as `checkForPossibleFrequencyScaling` sees it (it is not called for `AUFSO_Yes` and `AUFSO_UseTod`, `Clock.cpp:280-290`). -/
inductive Allow | warnFast | warnSlow | slow | no
deriving DecidableEq, Repr

/-- `checkForPossibleFrequencyScaling`, `Clock.cpp:113-128`: the new `may_have_frequency_scaling`, and whether a warning is logged. -/
def check (allow : Allow) (dir : Option (List Entry)) : Res (Bool × Bool) :=
  match doCFPFS dir with
  | .ok false => .ok (false, false)
  | .ok true =>
    match allow with
    | .warnFast => .ok (true, true)
    | .warnSlow => .ok (true, true)
    | .slow => .ok (true, false)
    | .no => .abort
  | .abort => .abort
  | .ub => .ub

end Verif.Clock.Scaling
