import Verif.Res
import Verif.HashFn.Model

/-!
# Model of the random number generators

`/repo/include/Lintel/MersenneTwisterRandom.hpp`, `/repo/src/MersenneTwisterRandom.cpp`,
`/repo/include/Lintel/RandomBase.hpp`, `/repo/include/Lintel/MarsagliaRandom.hpp`.

`uint32_t` is `BitVec 32`. The seeding code computes in `unsigned long` and keeps the low 32 bits; sums,
products, xors and differences of low halves agree with that, so it is modelled in 32 bits throughout.
Arrays are lists; reading or writing outside is `ub`. Choosing a seed from the clock and the process id
(seed 0) is not modelled: `init` is.
-/

namespace Verif.Rng

/-- Used in the model of `MersenneTwisterRandom.cpp:105-119` (`seedNext`). -/
abbrev W := BitVec 32

/-- Used in the model of `MersenneTwisterRandom.cpp:201-203` (`twist`). -/
def rd (l : List W) (i : Nat) : Res W :=
  match l[i]? with
  | some x => .ok x
  | none => .ub

/-- Used in the model of `MersenneTwisterRandom.cpp:105-119` (`init`). -/
def wr (l : List W) (i : Nat) (x : W) : Res (List W) :=
  if i < l.length then .ok (l.set i x) else .ub

/-! ## Mersenne Twister -/

/-- Used in the model of `MersenneTwisterRandom.cpp:105-119` (`init`). -/
structure MT where
  mt : List W
  mti : Nat
deriving Repr, DecidableEq

/-- `init`, `MersenneTwisterRandom.cpp:105-119`: the word after `p` at index `i`. -/
def seedNext (p : W) (i : Nat) : W := 1812433253#32 * (p ^^^ (p >>> 30)) + BitVec.ofNat 32 i

/-- One round of the loop in `init`. Used in the model of `MersenneTwisterRandom.cpp:105-119` (`init`). -/
def initStep (l : List W) (i : Nat) : Res (List W) := do
  let p ← rd l (i - 1)
  wr l i (seedNext p i)

/-- The memory of `mt` before seeding: 624 words of anything. Used in the model of `MersenneTwisterRandom.cpp:105-119` (`init`). -/
abbrev Mem := List W

/-- `init(seed)`, `MersenneTwisterRandom.cpp:105-119`. The loop counter is `mti`, which ends at `N`. -/
def init (old : Mem) (seed : W) : Res MT := do
  let l ← wr old 0 seed
  let l ← (List.range' 1 623).foldlM initStep l
  pure ⟨l, 624⟩

/-- One round of either loop in `reloadArray`, `MersenneTwisterRandom.cpp:201-203, 205-207, 209-210`. -/
def twist (l : List W) (kk k1 km : Nat) : Res (List W) := do
  let a ← rd l kk
  let b ← rd l k1
  let y := (a &&& 0x80000000#32) ||| (b &&& 0x7fffffff#32)
  let c ← rd l km
  let mag := if y &&& 1#32 = 0#32 then 0#32 else 0x9908b0df#32
  wr l kk (c ^^^ (y >>> 1) ^^^ mag)

/-- `reloadArray`, `MersenneTwisterRandom.cpp:192-213`. -/
def reloadArray (s : MT) : Res MT := do
  let l ← (List.range' 0 227).foldlM (fun l kk => twist l kk (kk + 1) (kk + 397)) s.mt
  let l ← (List.range' 227 396).foldlM (fun l kk => twist l kk (kk + 1) (kk - 227)) l
  let l ← twist l 623 0 396
  pure ⟨l, 0⟩

/-- The tempering in `randInt`, `MersenneTwisterRandom.hpp:47-50`. -/
def temper (y : W) : W :=
  let y := y ^^^ (y >>> 11)
  let y := y ^^^ ((y <<< 7) &&& 0x9d2c5680#32)
  let y := y ^^^ ((y <<< 15) &&& 0xefc60000#32)
  y ^^^ (y >>> 18)

/-- Used in the model of `MersenneTwisterRandom.hpp:40-52` (`randInt`). -/
def reloadIfDone (s : MT) : Res MT := if 624 ≤ s.mti then reloadArray s else .ok s

/-- `randInt`, `MersenneTwisterRandom.hpp:40-52`. -/
def randInt (s : MT) : Res (MT × W) := do
  let s ← reloadIfDone s
  let y ← rd s.mt s.mti
  pure ({ s with mti := s.mti + 1 }, temper y)

/-- `if (i>=N) { mt[0] = mt[N-1]; i=1; }`, `MersenneTwisterRandom.cpp:155, 162`. -/
def wrap (l : List W) (i : Nat) : Res (List W × Nat) :=
  if 624 ≤ i then do
    let x ← rd l 623
    let l ← wr l 0 x
    pure (l, 1)
  else .ok (l, i)

/-- The first loop of `initArray`, `MersenneTwisterRandom.cpp:150-157`: `k` rounds. -/
def arrayLoop1 (seeds : List W) : Nat → List W → Nat → Nat → Res (List W × Nat)
  | 0, l, i, _ => .ok (l, i)
  | k + 1, l, i, j => do
    let x ← rd l i
    let p ← rd l (i - 1)
    let s ← rd seeds j
    let l ← wr l i ((x ^^^ ((p ^^^ (p >>> 30)) * 1664525#32)) + s + BitVec.ofNat 32 j)
    let (l, i) ← wrap l (i + 1)
    arrayLoop1 seeds k l i (if seeds.length ≤ j + 1 then 0 else j + 1)

/-- The second loop of `initArray`, `MersenneTwisterRandom.cpp:158-163`. -/
def arrayLoop2 : Nat → List W → Nat → Res (List W)
  | 0, l, _ => .ok l
  | k + 1, l, i => do
    let x ← rd l i
    let p ← rd l (i - 1)
    let l ← wr l i ((x ^^^ ((p ^^^ (p >>> 30)) * 1566083941#32)) - BitVec.ofNat 32 i)
    let (l, i) ← wrap l (i + 1)
    arrayLoop2 k l i

/-- `initArray`, `MersenneTwisterRandom.cpp:143-167`. -/
def initArray (old : Mem) (seeds : List W) : Res MT := do
  let s ← init old 19650218#32
  let (l, i) ← arrayLoop1 seeds (if 624 > seeds.length then 624 else seeds.length) s.mt 1 0
  let l ← arrayLoop2 623 l i
  let l ← wr l 0 0x80000000#32
  pure ⟨l, s.mti⟩

/-! ## `RandomTempl` over any generator -/

/-- `RandomTempl<R>`, `RandomBase.hpp:14-23, 111-114`. -/
structure Templ (S : Type) where
  inner : S
  boolShift : Nat
  boolState : BitVec 64
deriving DecidableEq

section Templates
variable {S : Type} (next : S → Res (S × W))

/-- `RandomTempl(seed)`, `RandomBase.hpp:18-19`. -/
def Templ.new (s : S) : Templ S := ⟨s, 0, 0⟩

/-- `init(seed)`, `RandomBase.hpp:25-27`: only the inner generator is seeded. -/
def Templ.init (t : Templ S) (s : S) : Templ S := { t with inner := s }

/-- `randInt()`, `RandomBase.hpp:33-35`. -/
def Templ.int (t : Templ S) : Res (Templ S × W) := do
  let (s, x) ← next t.inner
  pure ({ t with inner := s }, x)

/-- `randLongLong()`, `RandomBase.hpp:37-43`. -/
def Templ.longLong (t : Templ S) : Res (Templ S × BitVec 64) := do
  let (t, x) ← t.int next
  let (t, y) ← t.int next
  pure (t, ((x.setWidth 64) <<< 32) ||| y.setWidth 64)

/-- `randInt(max)`, `RandomBase.hpp:47-49`. -/
def Templ.intMax (t : Templ S) (max : W) : Res (Templ S × W) := do
  let (t, x) ← t.int next
  if max = 0 then .ub else pure (t, x % max)

/-- `randBool()`, `RandomBase.hpp:97-99`. -/
def Templ.bool (t : Templ S) : Res (Templ S × Bool) := do
  let (t, x) ← t.int next
  pure (t, x.getLsbD 0)

/-- `if (boolShift==0) ...`, `RandomBase.hpp:102-105`. -/
def Templ.refill (t : Templ S) : Res (Templ S) :=
  if t.boolShift = 0 then do
    let (t, x) ← t.longLong next
    pure { t with boolShift := 64, boolState := x }
  else .ok t

/-- `randBoolFast()`, `RandomBase.hpp:101-110`. -/
def Templ.boolFast (t : Templ S) : Res (Templ S × Bool) := do
  let t ← t.refill next
  pure ({ t with boolState := t.boolState >>> 1, boolShift := t.boolShift - 1 }, t.boolState.getLsbD 0)

/-- One round of `randIntUnbiased(max)`, `RandomBase.hpp:53-60`: the result, if this output is accepted.
`u` is the value of `UINT32_MAX`. Division by zero is `ub`. -/
def accept (u max res : W) : Res (Option W) :=
  if max = 0 then .ub
  else if u - max > res then .ok (some (res % max))
  else if (u / max) * max > res then .ok (some (res % max))
  else .ok none

/-- `randIntUnbiased(max)`, `RandomBase.hpp:51-62`, at most `fuel` rounds; `none` when it is still looping. -/
def Templ.intUnbiased (u : W) (max : W) : Nat → Templ S → Res (Templ S × Option W)
  | 0, t => .ok (t, none)
  | fuel + 1, t => do
    let (t, x) ← t.int next
    match ← accept u max x with
    | some r => pure (t, some r)
    | none => Templ.intUnbiased u max fuel t

/-- The calls of `RandomTempl`, `RandomBase.hpp:33-110`. The doubles are functions of one `randInt()` or of two
(`RandomBase.hpp:77-95`), which is what `int` and `pair` return. -/
inductive Call where
  | int
  | intMax (max : W)
  | intUnbiased (max : W)
  | longLong
  | pair
  | bool
  | boolFast
deriving DecidableEq

/-- Not a function of the code; stands for the uses of `RandomBase.hpp:14-110`. -/
inductive Out where
  | word (w : W)
  | wide (w : BitVec 64)
  | two (a b : W)
  | flag (b : Bool)
  | looping
deriving DecidableEq

/-- `a=randInt()>>5, b=randInt()>>6`, `RandomBase.hpp:87, 91`. -/
def Templ.pair (t : Templ S) : Res (Templ S × W × W) := do
  let (t, a) ← t.int next
  let (t, b) ← t.int next
  pure (t, a >>> 5, b >>> 6)

/-- Made of the parts of `RandomBase.hpp:14-110`. -/
def Templ.call (u : W) (fuel : Nat) (t : Templ S) : Call → Res (Templ S × Out)
  | .int => do let (t, x) ← t.int next; pure (t, .word x)
  | .intMax m => do let (t, x) ← t.intMax next m; pure (t, .word x)
  | .intUnbiased m => do
      let (t, x) ← t.intUnbiased next u m fuel
      match x with
      | some r => pure (t, .word r)
      | none => pure (t, .looping)
  | .longLong => do let (t, x) ← t.longLong next; pure (t, .wide x)
  | .pair => do let (t, a, b) ← t.pair next; pure (t, .two a b)
  | .bool => do let (t, x) ← t.bool next; pure (t, .flag x)
  | .boolFast => do let (t, x) ← t.boolFast next; pure (t, .flag x)

/-- Made of the parts of `RandomBase.hpp:14-110`. -/
def Templ.calls (u : W) (fuel : Nat) : List Call → Templ S → Res (Templ S × List Out)
  | [], t => .ok (t, [])
  | c :: cs, t => do
    let (t, o) ← t.call next u fuel c
    let (t, os) ← Templ.calls u fuel cs t
    pure (t, o :: os)

end Templates

/-! ## Shuffling -/

/-- `iter_swap(i, j)`. Used in the model of `MersenneTwisterRandom.hpp:103-106` (`shuffleFrom`). -/
def swap {α : Type} (l : List α) (i j : Nat) : Res (List α) :=
  match l[i]?, l[j]? with
  | some x, some y => .ok ((l.set i y).set j x)
  | _, _ => .ub

/-- The loop of `MT_random_shuffle`, `MersenneTwisterRandom.hpp:103-106`, from index `i` on; `rvals` are the
successive results of `randInt((i-first)+1)`. -/
def shuffleFrom {α : Type} : Nat → List Nat → List α → Res (List α)
  | _, [], l => .ok l
  | i, r :: rs, l => do
    let l ← swap l i r
    shuffleFrom (i + 1) rs l

/-- `MT_random_shuffle`, `MersenneTwisterRandom.hpp:97-107`: `l.length - 1` random numbers are drawn (none for
the empty range). -/
def shuffle {α : Type} (rvals : List Nat) (l : List α) : Res (List α) := shuffleFrom 1 rvals l

/-! ## Marsaglia generators -/

/-- `MicroRandInner`, `MarsagliaRandom.hpp:14`. -/
structure Micro where
  x : W
  y : W
  z : W
  w : W
deriving Repr, DecidableEq

/-- `MicroRandInner::init`, `MarsagliaRandom.hpp:19-33`. -/
def Micro.init (seed : W) : Micro :=
  ⟨HashFn.mix3 0x243F6A88#32 0x85A308D3#32 seed, HashFn.mix3 0x13198A2E#32 0x03707344#32 seed,
    HashFn.mix3 0xA4093822#32 0x299F31D0#32 seed, HashFn.mix3 0x082EFA98#32 0xEC4E6C89#32 seed⟩

/-- `MicroRandInner::randInt`, `MarsagliaRandom.hpp:35-46`: `x=y; y=z; x=w;`. -/
def Micro.next (s : Micro) : Micro × W :=
  let t := s.x ^^^ (s.x <<< 15)
  let x := s.y
  let y := s.z
  let _ := x
  let x := s.w
  let w := (t ^^^ (t >>> 4)) ^^^ (s.w ^^^ (s.w >>> 21))
  (⟨x, y, s.z, w⟩, w)

/-- `MarsagliaInner<SIZE, A>`, `MarsagliaRandom.hpp:91-95`. -/
structure Mars where
  x : List W
  c : W
  i : W
deriving Repr, DecidableEq

/-- `MarsagliaInner::randInt`, `MarsagliaRandom.hpp:108-124`. `A` is a `uint64_t`; `A * x[i] + c` is computed in 64
bits; `i` is a `uint32_t`. -/
def Mars.next (size : Nat) (A : BitVec 64) (s : Mars) : Res (Mars × W) := do
  let i := (s.i + 1#32) &&& BitVec.ofNat 32 (size - 1)
  let xi ← rd s.x i.toNat
  let temp : BitVec 64 := A * xi.setWidth 64 + s.c.setWidth 64
  let c : W := (temp >>> 32).setWidth 32
  let axc : W := (temp + c.setWidth 64).setWidth 32
  let (axc, c) := if axc < c then (axc + 1#32, c + 1#32) else (axc, c)
  let x ← wr s.x i.toNat ((0xffffffff#32 - 1#32) - axc)
  pure (⟨x, c, i⟩, (0xffffffff#32 - 1#32) - axc)

/-- The first loop of `MarsagliaInner::init`, `MarsagliaRandom.hpp:101-103`. -/
def Mars.fill : Nat → List W → Templ Micro → Res (List W × Templ Micro)
  | 0, l, r => .ok (l, r)
  | n + 1, l, r => do
    let (r, x) ← r.int (fun s => .ok s.next)
    Mars.fill n (l ++ [x]) r

/-- `MarsagliaInner::init(seed)`, `MarsagliaRandom.hpp:99-105`; `none` when `randIntUnbiased` is still looping after
`fuel` rounds. `i` keeps the value `old` it had. -/
def Mars.init (size : Nat) (A : BitVec 64) (u : W) (fuel : Nat) (old : W) (seed : W) : Res (Option Mars) := do
  let (x, r) ← Mars.fill size [] (Templ.new (Micro.init seed))
  let (_, c) ← r.intUnbiased (fun s => .ok s.next) u (A.setWidth 32) fuel
  pure (c.map fun c => ⟨x, c, old⟩)

end Verif.Rng
