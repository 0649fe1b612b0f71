import Verif.Base64.Lemmas

/-!
# Specification of ASCII-ordered base 64

Independent of the encoder: the alphabet is written out, and a string is read as a number by
Horner's rule. `Byte` and `Str` are the only things taken from the model (besides `bytesVal`,
the big-endian value of a byte string, defined with the lemmas).
-/

namespace Verif.Base64

/-- The 64 characters in ASCII order. -/
def alphabet : Str :=
  "+,0123456789ABCDEFGHIJKLMNOPQRSTUVWXYZabcdefghijklmnopqrstuvwxyz".toList.map
    (fun c => Fin.ofNat 256 c.toNat)

/-- Value of one character. -/
def digitOf (c : Byte) : Option Nat := alphabet.idxOf? c

/-- Read a string as a number in base 64, most significant digit first. -/
def readFrom (acc : Nat) : Str → Option Nat
  | [] => some acc
  | c :: cs => match digitOf c with
    | none => none
    | some v => readFrom (acc * 64 + v) cs

def readNumber (s : Str) : Option Nat := readFrom 0 s

end Verif.Base64
