import Verif.Res

/-!
# `AssertExceptionT::stringPrintF`

`/repo/src/AssertException.cpp:20-35`. The text the format stands for is given: `some text`, or `none` when `vsnprintf` fails with a negative result (an encoding
error, or a text longer than `INT_MAX`). Characters are numbers, 0 is NUL.
-/

namespace Verif.Assert.Printf
open Verif

/-- `std::string::resize`: cut, or extended with NULs. Used in the model of `AssertException.cpp:26-34` (`stringPrintF`). -/
def resize (s : List Nat) (n : Nat) : List Nat := s.take n ++ List.replicate (n - s.length) 0

/-- What `vsnprintf(buf, size, …)` leaves in a buffer of `size` bytes (`size > 0`): as much of the text as fits before a NUL; the rest is untouched. Used in the model of `AssertException.cpp:26-34` (`stringPrintF`). -/
def vsnprintf (buf : List Nat) (text : List Nat) : List Nat :=
  let out := text.take (buf.length - 1) ++ [0]
  out ++ buf.drop out.length

/-- `stringPrintF`, lines 26-34. A negative size becomes a huge one, for which `resize` throws: outcome `abort`. -/
def stringPrintF : Option (List Nat) → Res (List Nat)
  | none => .abort
  | some text => .ok (resize (vsnprintf (resize [] 1024) text) text.length)

end Verif.Assert.Printf
