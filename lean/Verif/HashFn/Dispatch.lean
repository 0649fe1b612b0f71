import Verif.HashFn.Model

/-! # `lintel::hash` of integers, pointers, strings and pairs

Model of HashFns.hpp:98-264. Which overload is taken is settled by the compiler and not modelled: a value is given with the width of its type (`boost::is_integral`), or as a `Key`. A class with its own `hash()` is handed to that. A pair is hashed by `hashType` of its halves, which exists for strings, C strings and pairs (a pair of integers does not compile). The machine is little-endian with 64-bit pointers. Text is bytes. -/

namespace Verif.HashFn

/-- `HashIntegral<1>`, `HashIntegral<2>` and `HashIntegral<4>`, `HashFns.hpp:146-165`: the conversion of the argument to the unsigned type of that width keeps the bits, the one to `uint32_t` puts zeros before them. `w` is 8, 16 or 32. -/
def hashSmall {w : Nat} (v : BitVec w) : W := v.setWidth 32

/-- `HashIntegral<8>`, `HashFns.hpp:167-172`; the default for the last argument is in `HashFns.hpp:89`. -/
def hashLong (v : BitVec 64) : W := mixULL v 1972

/-- `PointerHash` and `SharedPointerHash`, `HashFns.hpp:218-231` and `243-256`, with pointers of eight bytes. -/
def pointerHash (a : BitVec 64) : W := mixULL a 1972

/-- The bytes of `f` in memory, `HashFns.hpp:102`. -/
def wordBytes (f : W) : List Byte :=
  [⟨f.toNat % 256, by omega⟩, ⟨f.toNat / 256 % 256, by omega⟩, ⟨f.toNat / 65536 % 256, by omega⟩, ⟨f.toNat / 16777216 % 256, by omega⟩]

/-- Used in the model of `HashFns.hpp:98-111` (`hashType`). -/
inductive Key where
  /-- `std::string` -/
  | str (s : List Byte)
  /-- `const char *`: the memory from there on -/
  | cstr (mem : List Byte)
  | pair (first second : Key)

/-- `strlen`, line 110: past the end of what is there it is undefined. Used in the model of `HashFns.hpp:109-111` (`hashType`). -/
def strlen : List Byte → Res Nat
  | [] => .ub
  | b :: bs => if b = 0 then .ok 0 else do
    let n ← strlen bs
    pure (n + 1)

/-- `hashType`, `HashFns.hpp:98-111`. The order in which the halves of a pair are hashed does not matter. -/
def hashType : Key → Res W
  | .str s => bobJenkinsHash 1972 s s.length
  | .cstr mem => do
    let n ← strlen mem
    bobJenkinsHash 1972 mem n
  | .pair a b => do
    let f ← hashType a
    let s ← hashType b
    bobJenkinsHash s (wordBytes f) 4

end Verif.HashFn
