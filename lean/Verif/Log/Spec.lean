import Verif.Log.Model

/-!
# What the debug level of a category should be, from the calls alone

Only the type of calls (`Op`) is taken from the model.
-/

namespace Verif.Log.Spec
open Verif.Str

/-- The level (0..255) a call gives to category `c`, if it is a setting that matches `c`:
a name ending in `*` (byte 42) matches every category that begins with what precedes the
`*`; any other name matches only itself. -/
def gives (c : Str) : Op → Option Nat
  | .set name level =>
    if name.getLast? = some 42 then
      if name.dropLast.isPrefixOf c then some (level % 256) else none
    else if name = c then some (level % 256) else none
  | _ => none

/-- Does the call mention the category by name? -/
def mentions (c : Str) : Op → Bool
  | .use n => n = c
  | .set name _ => name.getLast? ≠ some 42 && name = c
  | .reserve _ => false

/-- All levels given to `c`, oldest first. -/
def given (c : Str) (calls : List Op) : List Nat := calls.filterMap (gives c)

/-- What a user expects: the latest matching setting counts. -/
def expected (c : Str) (calls : List Op) : Nat := (given c calls).getLast?.getD 0

/-- The calls before the first mention of `c`, and those from it on. -/
def before (c : Str) (calls : List Op) : List Op := calls.takeWhile (fun o => !mentions c o)
def fromFirst (c : Str) (calls : List Op) : List Op := calls.dropWhile (fun o => !mentions c o)

/-- What the code does: the latest matching setting made at or after the first mention; if
there is none, the *first* matching setting before it; else 0. -/
def actual (c : Str) (calls : List Op) : Nat :=
  ((given c (fromFirst c calls)).getLast?).getD (((given c (before c calls)).head?).getD 0)

/-- The same, by a decomposition of the calls. -/
def Actual (c : Str) (calls : List Op) (v : Nat) : Prop :=
  ∃ before call after, calls = before ++ call :: after ∧ mentions c call = true ∧
    (∀ o ∈ before, mentions c o = false) ∧
    v = ((given c (call :: after)).getLast?).getD (((given c before).head?).getD 0)

/-- The category a call mentions by name. -/
def named : Op → Option Str
  | .use n => some n
  | .set name _ => if name.getLast? = some 42 then none else some name
  | .reserve _ => none

/-- The categories mentioned, in order of first mention. -/
def categories (calls : List Op) : List Str := (calls.filterMap named).eraseDups

/-- The number of calls that set a pattern. -/
def patterns (calls : List Op) : Nat :=
  calls.countP (fun o => match o with | .set name _ => name.getLast? = some 42 | _ => false)

end Verif.Log.Spec
