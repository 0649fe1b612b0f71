import Verif.Res

/-!
# Model of `Text::Expand::expandString` (`/repo/src/Text/Expand.pm:17-50`)

Strings are lists of characters without newlines (`.` does not match one). Numbers are natural numbers of any size (perl's are exact up to 2^53, and further in integers). `die` is `abort`.
-/

namespace Verif.Expand
open Verif

/-- Used in the model of `Expand.pm:22` (`findGroup`). -/
abbrev Str := List Char

/-- Used in the model of `Expand.pm:22` (`inGroup`). -/
def isDigit (c : Char) : Bool := '0' ≤ c && c ≤ '9'

/-- `[0-9,\-\%]`, line 22. -/
def inGroup (c : Char) : Bool := isDigit c || c = ',' || c = '-' || c = '%'

/-- `\[([0-9,\-\%]+)?\]` at the start of a string: what is inside and what follows. None of the characters inside is `]`, so the longest run is the only one that can match. -/
def groupHere : Str → Option (Str × Str)
  | '[' :: s =>
    match s.dropWhile inGroup with
    | ']' :: rest => some (s.takeWhile inGroup, rest)
    | _ => none
  | _ => none

/-- The match of line 22: the shortest prefix, what is inside the brackets, and the suffix. -/
def findGroup : Str → Option (Str × Str × Str)
  | [] => none
  | c :: s =>
    match groupHere (c :: s) with
    | some (nums, suffix) => some ([], nums, suffix)
    | none => (findGroup s).map fun x => (c :: x.1, x.2)

/-- All fields between commas. Used in the model of `Expand.pm:24` (`splitComma`). -/
def fields : Str → List Str
  | [] => [[]]
  | c :: s =>
    if c = ',' then [] :: fields s
    else match fields s with
      | [] => [[c]]
      | f :: fs => (c :: f) :: fs

/-- `split(/,/, $nums)`, line 24: empty fields at the end are dropped. -/
def splitComma (s : Str) : List Str := ((fields s).reverse.dropWhile (· = [])).reverse

/-- The number a string of digits stands for. Used in the model of `Expand.pm:29-41` (`rangeTexts`). -/
def value (s : Str) : Nat := s.foldl (fun a c => 10 * a + (c.toNat - '0'.toNat)) 0

/-- `%d`. Used in the model of `Expand.pm:29-41` (`rangeTexts`). -/
def decimal (n : Nat) : Str := (Nat.repr n).toList

/-- `%0<w>d`. Used in the model of `Expand.pm:29-41` (`rangeTexts`). -/
def padded (w n : Nat) : Str := List.replicate (w - (decimal n).length) '0' ++ decimal n

/-- The loop of line 39. -/
def rangeLoop (i max step : Nat) : List Nat :=
  if _h : i ≤ max ∧ 0 < step then i :: rangeLoop (i + step) max step else []
termination_by max + 1 - i
decreasing_by omega

/-- `^(\d+)-(\d+)(?:\%(\d+))?$`, line 28. -/
def parseRange (b : Str) : Option (Str × Str × Option Str) :=
  let min := b.takeWhile isDigit
  match b.dropWhile isDigit with
  | '-' :: r =>
    let max := r.takeWhile isDigit
    match r.dropWhile isDigit with
    | [] => if min = [] ∨ max = [] then none else some (min, max, none)
    | '%' :: step => if min = [] ∨ max = [] ∨ step = [] ∨ step.any (fun c => !isDigit c) then none else some (min, max, some step)
    | _ => none
  | _ => none

/-- Lines 29-41: the texts a range stands for. A step of zero is a modulus of zero, for which perl dies. -/
def rangeTexts (min max : Str) (step : Option Str) : Res (List Str) :=
  let st := (step.map value).getD 1
  if value max < value min then .abort
  else if st = 0 then .abort
  else if (value max - value min) % st ≠ 0 then .abort
  else .ok ((rangeLoop (value min) (value max) st).map fun i => if min.length = max.length then padded min.length i else decimal i)

/-- Lines 26-44: the texts of one field. -/
def bitTexts (b : Str) : Res (List Str) :=
  if b ≠ [] ∧ b.all isDigit then .ok [b]
  else match parseRange b with
    | some (min, max, step) => rangeTexts min max step
    | none => .abort

/-- Lines 25-45: what is pushed onto `@pending` for the fields. -/
def bitsTexts : List Str → Res (List Str)
  | [] => .ok []
  | b :: bs => do
    let x ← bitTexts b
    let y ← bitsTexts bs
    pure (x ++ y)

/-- The loop of lines 20-49 with `@pending` and `@ret`, for at most `fuel` rounds; `.ub` when it has not ended by then. -/
def loop : Nat → List Str → List Str → Res (List Str)
  | 0, _, _ => .ub
  | _ + 1, [], ret => .ok ret
  | fuel + 1, thing :: pending, ret =>
    match findGroup thing with
    | some (pre, nums, suf) => do
      let texts ← bitsTexts (splitComma nums)
      loop fuel (pending ++ texts.map fun t => pre ++ t ++ suf) ret
    | none => loop fuel pending (ret ++ [thing])

/-- `expandString`, lines 17-50. -/
def expandString (fuel : Nat) (args : List Str) : Res (List Str) := loop fuel args []

end Verif.Expand
