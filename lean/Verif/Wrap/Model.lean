import Verif.Str.Model

/-!
# Model of `basicWordWrap` (`/repo/src/ProgramOptions.cpp:137-178`)

The function is internal; a user sees it through `lintel::programOptionsUsage`
(`ProgramOptions.cpp:189-193`), which prints `basicWordWrap(usage)`.

`processed_to` and `help_width` are `uint32_t`, so sums of the two wrap at 2^32; `pos`,
`find` and `length()` are `size_t`.  Not modelled: reading `COLUMNS` from the environment
(`getHelpWidth`, lines 107-119); the width is a parameter.
-/

namespace Verif.Wrap
open Verif.Str

/-- `'\n'` and `' '`. Used in the model of `ProgramOptions.cpp:160-175` (`breakLine`). -/
def nl : Byte := 10
/-- Used in the model of `ProgramOptions.cpp:162-166` (`scan`). -/
def sp : Byte := 32

/-- Arithmetic of `uint32_t`. Used in the model of `ProgramOptions.cpp:160-175` (`breakLine`). -/
def u32 (x : Nat) : Nat := x % 2 ^ 32

/-- `res[pos]`; an index outside the string is undefined. Used in the model of `ProgramOptions.cpp:162-166` (`scan`). -/
def charAt (s : Str) (pos : Nat) : Res Byte :=
  match s[pos]? with
  | some c => .ok c
  | none => .ub

/-- The scan for a blank, `ProgramOptions.cpp:162-166`:
`for (; pos > lo; --pos) if (res[pos] == ' ') break;`. -/
def scan (s : Str) (lo : Nat) : Nat → Res Nat
  | 0 => .ok 0
  | p + 1 =>
    if p + 1 > lo then do
      let c ← charAt s (p + 1)
      if c = sp then pure (p + 1) else scan s lo p
    else pure (p + 1)

/-- Making a line break, `ProgramOptions.cpp:160-175`. -/
def breakLine (w : Nat) (s : Str) (pt : Nat) : Res (Str × Nat) := do
  Res.require (decide (u32 (pt + w) < s.length))
  let pos ← scan s (u32 (pt + w / 2)) (u32 (pt + w))
  Res.require (decide (pos > pt) && decide (pos < s.length))
  let c ← charAt s pos
  if c = sp then
    pure (s.set pos nl, u32 (pos + 1))
  else do
    let s' ← Str.insert s (u32 (pt + w)) [nl]
    pure (s', u32 (pt + w + 1))

/-- One iteration of the loop, `ProgramOptions.cpp:147-175`; `none` is the `break`. -/
def body (w : Nat) (s : Str) (pt : Nat) : Res (Option (Str × Nat)) :=
  let pos := Str.find s [nl] pt
  if pos = npos then
    if Str.toSize ((s.length : Int) - pt) ≤ w then pure none
    else (breakLine w s pt).map some
  else if Str.toSize ((pos : Int) - pt) > w then (breakLine w s pt).map some
  else pure (some (s, u32 (pos + 1)))

/-- The loop, `ProgramOptions.cpp:146-176`.  Running out of fuel is `ub`, so a theorem that
gives `ok` includes termination. -/
def loop (w : Nat) : Nat → Str → Nat → Res Str
  | 0, _, _ => .ub
  | fuel + 1, s, pt => do
    let r ← body w s pt
    match r with
    | none => pure s
    | some (s', pt') => if pt' < s'.length then loop w fuel s' pt' else pure s'

/-- `basicWordWrap(in)` when `getHelpWidth()` answers `width`,
`ProgramOptions.cpp:137-178`. -/
def wordWrap (width : Nat) (text : Str) : Res Str :=
  loop (if width < 10 then 10 else width) (text.length + 1) text 0

end Verif.Wrap
