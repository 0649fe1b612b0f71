import Verif.Str.Model

/-!
# Model of `stringToInteger` (`/repo/include/Lintel/StringUtil.hpp:107-140`)

The function is a dispatch over two library functions, which are modelled by their meaning
in the "C" locale:

* `boost::lexical_cast<T>(string)`: for an integer type wider than `char`, an optional sign and
  decimal digits, nothing else; out of range is an error; for an unsigned type a minus sign
  negates modulo 2^bits (`shr_unsigned` in `boost/lexical_cast/detail`).  For `T` one of the
  `char` types (`int8_t`, `uint8_t`) the string must be one character, which is returned.
* `istringstream >> std::hex >> T` (libstdc++ `num_get`): skip white space, optional sign,
  optional `0x`, the longest run of digits; no digit or out of range sets `failbit`; what
  follows stays in the stream.  For `char` types the next non-blank character.

`FATAL_ERROR` is `abort`.  Not modelled: `T = bool`.
-/

namespace Verif.Num
open Verif.Str

/-- An integer type. Used in the model of `StringUtil.hpp:109-140` (`stringToInteger`). -/
structure Ty where
  signed : Bool
  bits : Nat
deriving DecidableEq, Repr

/-- Made of the parts of `StringUtil.hpp:109-140`. -/
def int8 : Ty := ⟨true, 8⟩
/-- Made of the parts of `StringUtil.hpp:109-140`. -/
def uint8 : Ty := ⟨false, 8⟩
/-- Made of the parts of `StringUtil.hpp:109-140`. -/
def int32 : Ty := ⟨true, 32⟩
/-- Made of the parts of `StringUtil.hpp:109-140`. -/
def uint32 : Ty := ⟨false, 32⟩
/-- Made of the parts of `StringUtil.hpp:109-140`. -/
def int64 : Ty := ⟨true, 64⟩

/-- The value of a digit character; 99 for any other character. Used in the model of `StringUtil.hpp:109-140` (`digit`). -/
def digitVal (c : Byte) : Nat :=
  if 48 ≤ c.val ∧ c.val ≤ 57 then c.val - 48
  else if 97 ≤ c.val ∧ c.val ≤ 102 then c.val - 87
  else if 65 ≤ c.val ∧ c.val ≤ 70 then c.val - 55
  else 99

/-- The value of a digit character in base `b`. Used in the model of `StringUtil.hpp:109-140` (`lexicalCast`). -/
def digit (b : Nat) (c : Byte) : Option Nat :=
  if digitVal c < b then some (digitVal c) else none

/-- The value of a run of digits, most significant first. Used in the model of `StringUtil.hpp:109-140` (`lexicalCast`). -/
def value (b : Nat) (ds : Str) : Nat := ds.foldl (fun a c => b * a + (digit b c).getD 0) 0

/-- `isspace` in the "C" locale. Used in the model of `StringUtil.hpp:109-140` (`streamInt`). -/
def isSpace (c : Byte) : Bool := c = 32 || (9 ≤ c.val && c.val ≤ 13)

/-- Signed magnitude to the target type; out of range is the error. Used in the model of `StringUtil.hpp:109-140` (`lexicalCast`). -/
def toTy (t : Ty) (neg : Bool) (n : Nat) : Res Int :=
  if t.signed then
    if neg then (if n ≤ 2 ^ (t.bits - 1) then .ok (-(n : Int)) else .abort)
    else (if n < 2 ^ (t.bits - 1) then .ok (n : Int) else .abort)
  else
    if n < 2 ^ t.bits then
      .ok (if neg then (((2 ^ t.bits - n) % 2 ^ t.bits : Nat) : Int) else (n : Int))
    else .abort

/-- The optional sign. Used in the model of `StringUtil.hpp:109-140` (`lexicalCast`). -/
def sign : Str → Bool × Str
  | 45 :: s => (true, s)
  | 43 :: s => (false, s)
  | s => (false, s)

/-- One character as a `char` type's value. Used in the model of `StringUtil.hpp:109-140` (`lexicalCast`). -/
def charValue (t : Ty) (c : Byte) : Int :=
  if t.signed && decide (c.val ≥ 128) then (c.val : Int) - 256 else c.val

/-- `boost::lexical_cast<T>(str)`. Used in the model of `StringUtil.hpp:109-140` (`stringToInteger`). -/
def lexicalCast (t : Ty) (s : Str) : Res Int :=
  if t.bits = 8 then
    match s with
    | [c] => .ok (charValue t c)
    | _ => .abort
  else
    let p := sign s
    if p.2 ≠ [] ∧ p.2.all (fun c => (digit 10 c).isSome) then toTy t p.1 (value 10 p.2)
    else .abort

/-- The optional `0x`/`0X`, only for base 16. Used in the model of `StringUtil.hpp:109-140` (`streamInt`). -/
def hexPrefix (b : Nat) : Str → Str
  | 48 :: 120 :: s => if b = 16 then s else 48 :: 120 :: s
  | 48 :: 88 :: s => if b = 16 then s else 48 :: 88 :: s
  | s => s

/-- `iss >> std::hex >> ret` / `iss >> std::oct >> ret`. Used in the model of `StringUtil.hpp:109-140` (`stringToInteger`). -/
def streamInt (b : Nat) (t : Ty) (s : Str) : Res Int :=
  let s := s.dropWhile isSpace
  if t.bits = 8 then
    match s with
    | c :: _ => .ok (charValue t c)
    | [] => .abort
  else
    let p := sign s
    let ds := (hexPrefix b p.2).takeWhile (fun c => (digit b c).isSome)
    if ds ≠ [] then toTy t p.1 (value b ds) else .abort

/-- `stringToInteger<T>(str, base)`, `StringUtil.hpp:109-140`. -/
def stringToInteger (t : Ty) (s : Str) (base : Int := 10) : Res Int :=
  if base = 10 then lexicalCast t s
  else if base = 16 then streamInt 16 t s
  else if base = 8 then streamInt 8 t s
  else .abort

end Verif.Num
