import Verif.Str.Model

/-! # Numerals, independently of the code -/

namespace Verif.Num.Spec
open Verif.Str

/-- `c` is the digit with value `v`: `0`-`9`, `a`-`f`, `A`-`F`. -/
inductive Digit : Byte → Nat → Prop
  | dec (v : Nat) (c : Byte) : v < 10 → c.val = 48 + v → Digit c v
  | low (v : Nat) (c : Byte) : 10 ≤ v → v < 16 → c.val = 97 + (v - 10) → Digit c v
  | up (v : Nat) (c : Byte) : 10 ≤ v → v < 16 → c.val = 65 + (v - 10) → Digit c v

/-- `s` spells the number `n` in base `b` (at least one digit, leading zeros allowed). -/
inductive Spells (b : Nat) : Str → Nat → Prop
  | one {c : Byte} {v : Nat} : Digit c v → v < b → Spells b [c] v
  | snoc {s : Str} {n : Nat} {c : Byte} {v : Nat} :
      Spells b s n → Digit c v → v < b → Spells b (s ++ [c]) (b * n + v)

/-- `s` spells the integer `x`: digits, or a sign and digits. -/
inductive SpellsInt (b : Nat) : Str → Int → Prop
  | plain {s : Str} {n : Nat} : Spells b s n → SpellsInt b s n
  | plus {s : Str} {n : Nat} : Spells b s n → SpellsInt b (43 :: s) n
  | minus {s : Str} {n : Nat} : Spells b s n → SpellsInt b (45 :: s) (-(n : Int))

/-- The range of a two's complement or unsigned type. -/
def InRange (signed : Bool) (bits : Nat) (x : Int) : Prop :=
  if signed then -(2 ^ (bits - 1) : Nat) ≤ x ∧ x < (2 ^ (bits - 1) : Nat)
  else 0 ≤ x ∧ x < (2 ^ bits : Nat)

/-- White space in the "C" locale. -/
def Blank (c : Byte) : Prop := c.val = 32 ∨ (9 ≤ c.val ∧ c.val ≤ 13)

/-- An optional sign. -/
inductive Sign : Str → Bool → Prop
  | none : Sign [] false
  | plus : Sign [43] false
  | minus : Sign [45] true

/-- The number of sign `neg` and size `n` is at the front of `s`: white space, a sign, `0x` or `0X` for base 16, as many
digits as there are, and then anything. -/
def Reads (b : Nat) (s : Str) (neg : Bool) (n : Nat) : Prop :=
  ∃ ws sg pf ds rest, s = ws ++ (sg ++ (pf ++ (ds ++ rest))) ∧ (∀ c ∈ ws, Blank c) ∧ Sign sg neg ∧
    (pf = [] ∨ (b = 16 ∧ (pf = [48, 120] ∨ pf = [48, 88]))) ∧ Spells b ds n ∧
    (∀ c r, rest = c :: r → ∀ v, Digit c v → b ≤ v) ∧
    (b = 16 → pf = [] → ds = [48] → rest.head? ≠ some 120 ∧ rest.head? ≠ some 88)

/-- The value of a type a number of sign `neg` and size `n` becomes: itself, or for unsigned types what it is congruent to. -/
def Becomes (signed : Bool) (bits : Nat) (neg : Bool) (n : Nat) (x : Int) : Prop :=
  InRange signed bits x ∧ if signed then x = (if neg then -(n : Int) else n)
    else n < 2 ^ bits ∧ ((2 ^ bits : Nat) : Int) ∣ x - (if neg then -(n : Int) else n)

end Verif.Num.Spec
