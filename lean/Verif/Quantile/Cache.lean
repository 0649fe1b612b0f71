import Verif.Quantile.Model

/-!
# The cache of sizes in StatsQuantile's constructor (src/StatsQuantile.cpp:26-51, 73-128)

All sketches of a program share the cache.  It is a `HashMap` (C04 to C09), here the list of its entries.  Errors are finite doubles that the program holds, so -0 is 0.  An `INVARIANT` that fails may throw, so the cache lives on after it.  Nothing locks the cache: one thread at a time.
-/

namespace Verif.Quantile

open Verif

/-- `bk_cache` (line 51): pairs of `ErrorNbound` and `BK`, the latter two `uint32_t` (lines 45-49). -/
abbrev Cache := List ((Rat × Nat) × (Nat × Nat))

/-- Conversion of an `int32_t` to `uint32_t` (lines 48, 121). -/
def toU32 (x : Int) : Nat := (x % 4294967296).toNat

/-- Conversion back (lines 90-91). -/
def toI32 (x : Nat) : Int := if x < 2147483648 then x else x - 4294967296

/-- `HashMap::lookup` with `ErrorNbound::operator ==` (lines 40-42, 87). -/
def Cache.find (ca : Cache) (key : Rat × Nat) : Option (Nat × Nat) := (ca.find? fun e => decide (e.1 = key)).map (·.2)

/-- `ErrorNbound::hash` is defined: the cast of `quantile_error * 1e9` to `uint32_t` (line 34). -/
def hashOk (r : Rat → Rat) (ε : Rat) : Bool := decide (-1 < r (ε * 1000000000) ∧ r (ε * 1000000000) < 4294967296)

/-- The search (lines 82, 94-117): `best_b` and `best_k`. -/
def search (r : Rat → Rat) (ε : Rat) (n : Nat) : Int × Int :=
  match (List.range' 2 28).foldl (betterB r (r (r (2 * ε) * r ((n : Nat) : Rat))) (r ((n : Nat) : Rat))) none with
  | none => (-1, -1)
  | some (b, k) => (b, k)

/-- The end of the constructor before `init` (lines 123-128). -/
def sized (b k : Int) : Res (Nat × Nat) := if 0 < b ∧ 0 < k then .ok (b.toNat, if k < 10 then 10 else k.toNat) else .abort

/-- The constructor (lines 73-128): the cache afterwards, whether it searched, and the sizes. -/
def ctorCached (r : Rat → Rat) (ca : Cache) (ε : Rat) (inN : Nat) : Cache × Bool × Res (Nat × Nat) :=
  if ¬ ε < r (2 / 10) then (ca, false, .abort)
  else if ¬ 1 < inN then (ca, false, .abort)
  else if hashOk r ε = false then (ca, false, .ub)
  else
    let n := if inN < 100 then 100 else inN
    match ca.find (ε, n) with
    | some (b, k) => (ca, false, sized (toI32 b) (toI32 k))
    | none =>
      let best := search r ε n
      let ca := if ca.length > 1000 then [] else ca
      (((ε, n), (toU32 best.1, toU32 best.2)) :: ca, true, sized best.1 best.2)

/-- Constructors called one after another (lines 73-128). -/
def ctors (r : Rat → Rat) : Cache → List (Rat × Nat) → Cache × List (Bool × Res (Nat × Nat))
  | ca, [] => (ca, [])
  | ca, (ε, n) :: l =>
    let x := ctorCached r ca ε n
    let y := ctors r x.1 l
    (y.1, x.2 :: y.2)

end Verif.Quantile
