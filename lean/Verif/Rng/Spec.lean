/-!
# What the random number generators promise

Nothing here mentions the model.
-/

namespace Verif.Rng.Spec

abbrev W := BitVec 32

/-- The MT19937 recurrence on an infinite sequence of words (Matsumoto and Nishimura 1998, eq. 2.1 with
`n = 624`, `m = 397`, `r = 31`, `a = 0x9908B0DF`): the upper bit of one word is joined to the lower 31 bits of the
next, shifted right by one, `a` is added if the bit shifted out was set, and the word 397 on is added. -/
def MTRecurrence (X : Nat → W) : Prop :=
  ∀ n, ∃ y : W,
    (∀ b : Nat, y.getLsbD b = if b = 31 then (X n).getLsbD 31 else (X (n + 1)).getLsbD b) ∧
    X (n + 624) = X (n + 397) ^^^ (y >>> 1) ^^^ (if y.getLsbD 0 then 0x9908B0DF#32 else 0#32)

/-- The first 624 words grown from a seed (Knuth's multiplicative scheme of the 2002 version). -/
def SeededFrom (seed : W) (X : Nat → W) : Prop :=
  X 0 = seed ∧ ∀ i, i < 623 → X (i + 1) = 1812433253#32 * (X i ^^^ (X i >>> 30)) + BitVec.ofNat 32 (i + 1)

/-- The words of a state array. -/
def StartsWith (l : List W) (X : Nat → W) : Prop := l.length = 624 ∧ ∀ i, i < 624 → l[i]? = some (X i)

/-- The MT19937 tempering. -/
def Tempered (y z : W) : Prop :=
  ∃ a b c : W, a = y ^^^ (y >>> 11) ∧ b = a ^^^ ((a <<< 7) &&& 0x9D2C5680#32) ∧
    c = b ^^^ ((b <<< 15) &&& 0xEFC60000#32) ∧ z = c ^^^ (c >>> 18)

/-- Marsaglia's xorshift128 with shifts (15, 4, 21): each word from the one four places before and the previous one. -/
def XorShift128 (w : Nat → W) : Prop :=
  ∀ n, ∃ t : W, t = w n ^^^ (w n <<< 15) ∧ w (n + 4) = (t ^^^ (t >>> 4)) ^^^ (w (n + 3) ^^^ (w (n + 3) >>> 21))

/-- A choice sequence for shuffling `n` elements: for `i = 1 .. n-1` a position at most `i`. -/
def Choices (n : Nat) (cs : List Nat) : Prop :=
  cs.length = n - 1 ∧ ∀ (i c : Nat), cs[i]? = some c → c ≤ i + 1

/-- Exactly `n` words satisfy `P`. -/
def Exactly (n : Nat) (P : W → Prop) : Prop :=
  ∃ f : Fin n → W, (∀ q q', f q = f q' → q = q') ∧ ∀ x, P x ↔ ∃ q, f q = x

/-- The complementary-multiply-with-carry step documented in `MarsagliaRandom.hpp`, with `B = 2^32 - 1`:
`X' = (B-1) - (A X + C) % B`, `C' = floor((A X + C) / B)`. -/
def CMWC (A X C X' C' : Nat) : Prop :=
  C' = (A * X + C) / 4294967295 ∧ X' = 4294967294 - (A * X + C) % 4294967295

end Verif.Rng.Spec
