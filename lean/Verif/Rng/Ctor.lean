import Verif.Rng.Model

/-! # The seed of a Mersenne Twister that is constructed with seed 0 (src/MersenneTwisterRandom.cpp:78-97, SYS_POSIX)

The numbers of processes are below 32768, so that the shift of a signed int is defined. -/

namespace Verif.Rng

/-- What the system tells: `getpid`, `getppid` and `gettimeofday` (lines 83-86). -/
structure Proc where
  pid : Nat
  ppid : Nat
  sec : Nat
  usec : Nat

/-- The seed that is used (lines 81-88): arithmetic in `unsigned long`, of which the low 32 bits are kept. -/
def ctorSeed (p : Proc) (seed : W) : W :=
  if seed = 0 then BitVec.ofNat 32 p.pid ^^^ BitVec.ofNat 32 (p.ppid * 65536) ^^^ BitVec.ofNat 32 p.sec ^^^ BitVec.ofNat 32 (p.usec * 1024) else seed

/-- The constructor (lines 78-97). -/
def ctor (p : Proc) (old : Mem) (seed : W) : Res MT := init old (ctorSeed p seed)

end Verif.Rng
