import Verif.HashFn.Model

/-! # Specification of the byte hash: what is added to the three words, block by block -/

namespace Verif.HashFn

/-- Little-endian value of the bytes at `i .. i+3`, absent bytes counting zero. -/
def le32 (k : List Byte) (i : Nat) : W :=
  BitVec.ofNat 32 ((k.getD i 0).val + 256 * (k.getD (i + 1) 0).val + 65536 * (k.getD (i + 2) 0).val +
    16777216 * (k.getD (i + 3) 0).val)

/-- Absorb whole 12-byte blocks. -/
def absorb : Nat → List Byte → Abc → Abc
  | 0, _, s => s
  | n + 1, k, s => absorb n (k.drop 12) (mixAbc ⟨s.a + le32 k 0, s.b + le32 k 4, s.c + le32 k 8⟩)

/-- The last, incomplete block: its bytes 0-3 go to `a`, 4-7 to `b`, 8-10 to the upper three bytes of `c`;
the length goes to `c`. -/
def finish (length : Nat) (k : List Byte) (s : Abc) : Abc :=
  mixAbc ⟨s.a + le32 k 0, s.b + le32 k 4, s.c + BitVec.ofNat 32 length + (le32 (k.take 11) 8 <<< 8)⟩

def hashState (seed : W) (k : List Byte) (length : Nat) : Abc :=
  finish length (k.drop (12 * (k.length / 12))) (absorb (k.length / 12) k ⟨0x9e3779b9#32, 0x9e3779b9#32, seed⟩)

/-! ## The published function, on its own

Bob Jenkins' `lookup2` (1996): nine rounds, each `x = (x - y - z) ^ (z shifted)`, then the names rotate. Written
over numbers below `2^32`, without any definition of the model. -/

/-- Shift amount of each round; `true` shifts left. -/
def lookup2Rounds : List (Bool × Nat) :=
  [(false, 13), (true, 8), (false, 13), (false, 12), (true, 16), (false, 5), (false, 3), (true, 10), (false, 15)]

/-- One round on `(x, y, z)`, leaving `(y, z, x')`. -/
def lookup2Round (s : Nat × Nat × Nat) (r : Bool × Nat) : Nat × Nat × Nat :=
  let d := (s.1 + 2 * 2 ^ 32 - s.2.1 - s.2.2) % 2 ^ 32
  let z := if r.1 then s.2.2 * 2 ^ r.2 % 2 ^ 32 else s.2.2 / 2 ^ r.2
  (s.2.1, s.2.2, d ^^^ z)

def lookup2Mix (s : Nat × Nat × Nat) : Nat × Nat × Nat := lookup2Rounds.foldl lookup2Round s

/-- Value of a little-endian byte string. -/
def leValue : List Byte → Nat
  | [] => 0
  | b :: bs => b.val + 256 * leValue bs

/-- Add three numbers to three words. -/
def addWords (s : Nat × Nat × Nat) (x y z : Nat) : Nat × Nat × Nat :=
  ((s.1 + x) % 2 ^ 32, (s.2.1 + y) % 2 ^ 32, (s.2.2 + z) % 2 ^ 32)

/-- The hash: whole blocks of 12 bytes are added as three little-endian words and mixed; of the last, incomplete
block, the length is the lowest byte's place of the third word, whose upper three bytes take bytes 8 to 10. -/
def lookup2Block (k : List Byte) (s : Nat × Nat × Nat) : Nat × Nat × Nat :=
  lookup2Mix (addWords s (leValue (k.take 4)) (leValue ((k.drop 4).take 4)) (leValue ((k.drop 8).take 4)))

/-- Apply `f` to `n` consecutive blocks of 12 bytes. -/
def forBlocks {σ : Type} (f : List Byte → σ → σ) : Nat → List Byte → σ → σ
  | 0, _, s => s
  | n + 1, k, s => forBlocks f n (k.drop 12) (f k s)

def lookup2 (seed : Nat) (k : List Byte) : Nat :=
  let s := forBlocks lookup2Block (k.length / 12) k (0x9e3779b9, 0x9e3779b9, seed)
  let t := k.drop (12 * (k.length / 12))
  (lookup2Mix (addWords s (leValue (t.take 4)) (leValue ((t.drop 4).take 4))
    (k.length + 256 * leValue ((t.drop 8).take 3)))).2.2

end Verif.HashFn
