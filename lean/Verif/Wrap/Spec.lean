import Verif.Str.Model

/-!
# What wrapping a text means, independently of the code

A text is a list of bytes; 10 is the newline and 32 the blank.
-/

namespace Verif.Wrap.Spec
open Verif.Str

/-- The lines of a text: the maximal newline-free pieces, in order. -/
def lines : Str → List Str
  | [] => [[]]
  | c :: t =>
    if c = 10 then [] :: lines t
    else
      match lines t with
      | [] => [[c]]
      | l :: ls => (c :: l) :: ls

/-- `SameText a b`: `b` is `a` with some blanks turned into newlines and some newlines
inserted. -/
inductive SameText : Str → Str → Prop
  | nil : SameText [] []
  | same (c : Byte) {a b : Str} : SameText a b → SameText (c :: a) (c :: b)
  | blank {a b : Str} : SameText a b → SameText (32 :: a) (10 :: b)
  | ins {a b : Str} : SameText a b → SameText a (10 :: b)

/-- `Broken w a b`: `b` is what the comments in the source promise for `a`.  Lines that fit
stay; a line that does not is cut at its right-most blank in its second half, or, when
there is none, after exactly `w` characters. -/
inductive Broken (w : Nat) : Str → Str → Prop
  | fit {a : Str} : (10 : Byte) ∉ a → a.length ≤ w → Broken w a a
  | keep {a b b' : Str} : (10 : Byte) ∉ a → a.length ≤ w → Broken w b b' →
      Broken w (a ++ 10 :: b) (a ++ 10 :: b')
  | atBlank {a b b' : Str} : (10 : Byte) ∉ a → w / 2 ≤ a.length → a.length ≤ w →
      w < (a ++ 32 :: b).length →
      (∀ c ∈ b.take (w - a.length), c ≠ 10 ∧ c ≠ 32) → Broken w b b' →
      Broken w (a ++ 32 :: b) (a ++ 10 :: b')
  | force {a b b' : Str} : (10 : Byte) ∉ a → a.length = w → b ≠ [] →
      b.head? ≠ some 10 → b.head? ≠ some 32 → (32 : Byte) ∉ a.drop (w / 2) → Broken w b b' →
      Broken w (a ++ b) (a ++ 10 :: b')

end Verif.Wrap.Spec
