import Verif.Res

/-!
# Model of the hash functions (`/repo/include/Lintel/HashFns.hpp`, `/repo/src/HashFns.cpp`)

`uint32_t` arithmetic is `BitVec 32`. Bytes handed to `bobJenkinsHash` are a list; reading outside it is
`ub`. `size_t` is 64 bits.
-/

namespace Verif.HashFn

/-- Used in the model of `HashFns.hpp:48-58` (`mix`). -/
abbrev W := BitVec 32

/-- Used in the model of `HashFns.cpp:102-104` (`word`). -/
abbrev Byte := Fin 256

/-- `lintel_BobJenkinsHashMix`, `HashFns.hpp:48-58` (the same text as `mix`, `HashFns.cpp:46-56`). -/
def mix (a b c : W) : W × W × W :=
  let a := a - b; let a := a - c; let a := a ^^^ (c >>> 13)
  let b := b - c; let b := b - a; let b := b ^^^ (a <<< 8)
  let c := c - a; let c := c - b; let c := c ^^^ (b >>> 13)
  let a := a - b; let a := a - c; let a := a ^^^ (c >>> 12)
  let b := b - c; let b := b - a; let b := b ^^^ (a <<< 16)
  let c := c - a; let c := c - b; let c := c ^^^ (b >>> 5)
  let a := a - b; let a := a - c; let a := a ^^^ (c >>> 3)
  let b := b - c; let b := b - a; let b := b ^^^ (a <<< 10)
  let c := c - a; let c := c - b; let c := c ^^^ (b >>> 15)
  (a, b, c)

/-- `BobJenkinsHashMix3`, `HashFns.hpp:84-87`. -/
def mix3 (a b c : W) : W := (mix a b c).2.2

/-- `BobJenkinsHashMixULL`, `HashFns.hpp:89-96`. -/
def mixULL (v : BitVec 64) (partial_ : W) : W :=
  mix3 ((v &&& 0xFFFFFFFF#64).setWidth 32) (((v >>> 32) &&& 0xFFFFFFFF#64).setWidth 32) partial_

/-- `k[i]` as an unsigned word. Used in the model of `HashFns.cpp:102-104` (`word`). -/
def rd (k : List Byte) (i : Nat) : Res W :=
  match k[i]? with
  | some b => .ok (BitVec.ofNat 32 b.val)
  | none => .ub

/-- `k[i] + (k[i+1] << 8) + (k[i+2] << 16) + (k[i+3] << 24)`, `HashFns.cpp:102-104`. -/
def word (k : List Byte) (i : Nat) : Res W := do
  let b0 ← rd k i
  let b1 ← rd k (i + 1)
  let b2 ← rd k (i + 2)
  let b3 ← rd k (i + 3)
  pure (b0 + (b1 <<< 8) + (b2 <<< 16) + (b3 <<< 24))

/-- Used in the model of `HashFns.cpp:100-107` (`blocks`). -/
structure Abc where
  a : W
  b : W
  c : W
deriving DecidableEq, Repr

/-- Used in the model of `HashFns.cpp:100-107` (`blocks`). -/
def mixAbc (s : Abc) : Abc := let r := mix s.a s.b s.c; ⟨r.1, r.2.1, r.2.2⟩

/-- The loop over whole blocks, `HashFns.cpp:100-107`; `pos` is `k` minus its first value. -/
def blocks (k : List Byte) : Nat → Nat → Nat → Abc → Res (Nat × Nat × Abc)
  | 0, _, _, _ => .ub
  | fuel + 1, pos, len, s =>
    if 12 ≤ len then do
      let x ← word k pos
      let y ← word k (pos + 4)
      let z ← word k (pos + 8)
      blocks k fuel (pos + 12) (len - 12) (mixAbc ⟨s.a + x, s.b + y, s.c + z⟩)
    else .ok (pos, len, s)

/-- One `case` of the `switch`: reached when `len ≥ n`; adds `k[n-1] << sh`. Used in the model of `HashFns.cpp:113-115` (`tailC`). -/
def caseAdd (k : List Byte) (pos len n sh : Nat) (acc : W) : Res W :=
  if n ≤ len then do
    let b ← rd k (pos + (n - 1))
    pure (acc + (b <<< sh))
  else .ok acc

/-- `case 11` to `case 9`, `HashFns.cpp:113-115`. -/
def tailC (k : List Byte) (pos len : Nat) (c : W) : Res W := do
  let c ← caseAdd k pos len 11 24 c
  let c ← caseAdd k pos len 10 16 c
  caseAdd k pos len 9 8 c

/-- `case 8` to `case 5`, `HashFns.cpp:117-120`. -/
def tailB (k : List Byte) (pos len : Nat) (b : W) : Res W := do
  let b ← caseAdd k pos len 8 24 b
  let b ← caseAdd k pos len 7 16 b
  let b ← caseAdd k pos len 6 8 b
  caseAdd k pos len 5 0 b

/-- `case 4` to `case 1`, `HashFns.cpp:121-124`. -/
def tailA (k : List Byte) (pos len : Nat) (a : W) : Res W := do
  let a ← caseAdd k pos len 4 24 a
  let a ← caseAdd k pos len 3 16 a
  let a ← caseAdd k pos len 2 8 a
  caseAdd k pos len 1 0 a

/-- `bobJenkinsHash`, `HashFns.cpp:87-128`, before the final value is picked. `length` is the byte count;
`len` is a 32-bit copy of it. -/
def bobState (initval : W) (k : List Byte) (length : Nat) : Res Abc := do
  let len := length % 4294967296
  let (pos, rest, s) ← blocks k (len + 1) 0 len ⟨0x9e3779b9#32, 0x9e3779b9#32, initval⟩
  let c ← tailC k pos rest (s.c + BitVec.ofNat 32 length)
  let b ← tailB k pos rest s.b
  let a ← tailA k pos rest s.a
  pure (mixAbc ⟨a, b, c⟩)

/-- `bobJenkinsHash`, `HashFns.cpp:87-128`. -/
def bobJenkinsHash (initval : W) (k : List Byte) (length : Nat) : Res W :=
  (bobState initval k length).map (·.c)

/-- `hashBytes`, `HashFns.hpp:76-79`. -/
def hashBytes (k : List Byte) (prev : W := 1972) : Res W := bobJenkinsHash prev k k.length

end Verif.HashFn
