import Verif.CStr.Model
import Verif.HashFn.Dispatch

/-! # `ConstantString`: hash, comparison with C strings, printing

Model of ConstantString.hpp:86-101, 178-181 and 198-213. The addresses of the buffers are given by the memory allocator; pointers have eight bytes. -/

namespace Verif.CStr

open Verif.Str

/-- The address in a pointer into a buffer, given where the buffers are. Used in the model of `ConstantString.hpp:86-101` (`hash`). -/
def addr (base : Nat → Nat) : Ptr → Nat
  | .at b off => base b + off
  | .tmp => 0

/-- `hash()` with pointers of eight bytes, `ConstantString.hpp:95-99`. -/
def hashAddr (v : BitVec 64) : BitVec 32 := ((v &&& 0xFFFFFFFF#64) ^^^ (v >>> 32)).setWidth 32

/-- `hash()`, `ConstantString.hpp:86-101`. -/
def hash (base : Nat → Nat) (p : Ptr) : BitVec 32 := hashAddr (BitVec.ofNat 64 (addr base p))

/-- What is in the buffer from the pointer on. Used in the model of `ConstantString.hpp:206` (`notEqual`) and `212` (`printed`). -/
def memFrom (s : State) (p : Ptr) : Res Str :=
  match p with
  | .tmp => .ub
  | .at b off => match s.bufs[b]? with
    | some buf => if off ≤ buf.size then .ok (read buf.mem off (buf.size - off)) else .ub
    | none => .ub

/-- `strcmp`: up to the first difference or a zero. Used in the model of `ConstantString.hpp:205-207` (`notEqual`). -/
def strcmp : Str → Str → Res Ordering
  | a :: as, b :: bs => if a < b then .ok .lt else if b < a then .ok .gt else if a = 0 then .ok .eq else strcmp as bs
  | _, _ => .ub

/-- `operator!=(const ConstantString &, const char *)`, `ConstantString.hpp:204-207`; `rhs` is the memory there. -/
def notEqual (s : State) (p : Ptr) (rhs : Str) : Res Bool := do
  let m ← memFrom s p
  let o ← strcmp m rhs
  pure (decide (o ≠ .eq))

/-- `operator!=(const ConstantString &, const std::string &)`, `ConstantString.hpp:199-202`. -/
def notEqualStr (s : State) (p : Ptr) (rhs : Str) : Res Bool := do
  let o ← compareStr s p rhs
  pure (decide (o ≠ .eq))

/-- `==` with a `std::string`: the right side is made a `ConstantString` first, `ConstantString.hpp:61-63` and `178-181`. -/
def equalStr (env : Env) (s : State) (p : Ptr) (rhs : Str) : Res Bool := do
  let r ← create env s rhs
  pure (equal p r.2)

/-- `operator<<`, `ConstantString.hpp:209-213`: what is written. -/
def printed (s : State) (p : Ptr) : Res Str := do
  let m ← memFrom s p
  let n ← HashFn.strlen m
  pure (m.take n)

end Verif.CStr
