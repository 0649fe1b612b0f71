import Verif.Tuple.Model
import Verif.Hash.SetModel

/-!
# Model of `HashTupleStats` and `StatsCube`

`/repo/include/Lintel/HashTupleStats.hpp`, `/repo/include/Lintel/StatsCube.hpp`.

Both classes keep a `HashMap` (the model of `Verif.Hash`) from keys to pointers to statistics. A pointer is an index into the
list of statistics objects ever created for the container (`none` in that list: deleted). The null pointer is `none`.

Statistics are of any type `S`; the factory function returns `fresh`, `add` is their `add(double)` with values of any type `D`, and
`merge` is the `CubeStatsAddFn`. Callbacks are functions of their arguments (they do not change the containers); a walk is
the list of the calls made.
-/

namespace Verif.Cube

open Verif.Hash Verif.Tuple

/-- A hash map to pointers, and the objects. Used in the model of `HashTupleStats.hpp:208-216` (`getEntry`). -/
structure PMap (K S : Type) where
  data : Table (K × Option Nat)
  heap : List (Option S)

section
variable {K S : Type}

/-- Made of the parts of `HashTupleStats.hpp:208-216`. -/
def PMap.empty : PMap K S := ⟨empty', []⟩

/-- Read behind a pointer: null, wild or deleted is undefined. Used in the model of `HashTupleStats.hpp:62-89` (`zeroWalk`). -/
def rdPtr (heap : List (Option S)) : Option Nat → Res S
  | none => .ub
  | some p => match heap[p]? with
    | some (some s) => .ok s
    | _ => .ub

/-- `delete p`; deleting a null pointer does nothing. Used in the model of `HashTupleStats.hpp:231-241` (`delAll`). -/
def delPtr (heap : List (Option S)) : Option Nat → Res (List (Option S))
  | none => .ok heap
  | some p => match heap[p]? with
    | some (some _) => .ok (heap.set p none)
    | _ => .ub

/-- `delete` for several pointers in turn. Used in the model of `HashTupleStats.hpp:231-241` (`pprune`). -/
def delAll : List (Option S) → List (Option Nat) → Res (List (Option S))
  | heap, [] => .ok heap
  | heap, p :: ps => do
    let heap ← delPtr heap p
    delAll heap ps

/-- `getHashEntry`, `HashTupleStats.hpp:208-216`, and `getCubeEntry`, `StatsCube.hpp:203-210`. -/
def getEntry (m : MapCfg K (Option Nat)) (fresh : S) (c : PMap K S) (k : K) : Res (PMap K S × Nat) := do
  let r ← mIndex m c.data k
  let e ← deref r.1 r.2
  match e.2 with
  | some p => pure (⟨r.1, c.heap⟩, p)
  | none => do
    let t ← store r.1 r.2 (e.1, some c.heap.length)
    pure (⟨t, c.heap ++ [some fresh]⟩, c.heap.length)

/-- A member call on the object behind the pointer. Used in the model of `HashTupleStats.hpp:129-131` (`update`). -/
def callAt (c : PMap K S) (p : Nat) (g : S → S) : Res (PMap K S) := do
  let s ← rdPtr c.heap (some p)
  pure ⟨c.data, c.heap.set p (some (g s))⟩

/-- Change the statistic of a key: `getHashEntry(key).add(value)`, `HashTupleStats.hpp:129-131`;
`cube_stats_add_fn(getCubeEntry(key), value)`, `StatsCube.hpp:262`. -/
def update (m : MapCfg K (Option Nat)) (fresh : S) (c : PMap K S) (k : K) (g : S → S) : Res (PMap K S) := do
  let r ← getEntry m fresh c k
  callAt r.1 r.2 g

/-- The calls made for entries: key and the statistic behind the pointer. Used in the model of `HashTupleStats.hpp:135-139` (`pwalk`). -/
def visit (heap : List (Option S)) : List (K × Option Nat) → Res (List (K × S))
  | [] => .ok []
  | x :: xs => do
    let s ← rdPtr heap x.2
    let rest ← visit heap xs
    pure ((x.1, s) :: rest)

/-- `walk`, `HashTupleStats.hpp:135-139`, `StatsCube.hpp:177-181`. -/
def pwalk (c : PMap K S) : Res (List (K × S)) := do
  let l ← walk c.data
  visit c.heap l

/-- `operator<` of `std::pair<K, StatsT *>`. Used in the model of `HashTupleStats.hpp:145-158` (`pwalkOrdered`). -/
def pairLt (lt : K → K → Bool) (a b : K × Option Nat) : Bool :=
  lt a.1 b.1 || (!lt b.1 a.1 && decide (a.2.getD 0 < b.2.getD 0))

/-- Put an element before the first one that is not less than it. Used in the model of `HashTupleStats.hpp:145-158` (`sortBy`). -/
def insertBy {β : Type} (lt : β → β → Bool) (x : β) : List β → List β
  | [] => [x]
  | y :: ys => if lt y x then y :: insertBy lt x ys else x :: y :: ys

/-- `std::sort` with `lt` as `operator<` (an insertion sort here). Used in the model of `HashTupleStats.hpp:145-158` (`pwalkOrdered`). -/
def sortBy {β : Type} (lt : β → β → Bool) : List β → List β
  | [] => []
  | x :: xs => insertBy lt x (sortBy lt xs)

/-- `walkOrdered`, `HashTupleStats.hpp:145-158`, `StatsCube.hpp:188-199`. -/
def pwalkOrdered (lt : K → K → Bool) (c : PMap K S) : Res (List (K × S)) := do
  let l ← walk c.data
  visit c.heap (sortBy (pairLt lt) l)

/-- `prune`, `HashTupleStats.hpp:231-241`, `StatsCube.hpp:221-231`: the loop is the one of `Hash.prune`. The objects are deleted
here after the loop rather than one by one within it; the loop does not look at them. -/
def pprune (m : MapCfg K (Option Nat)) (sel : K → Bool) (c : PMap K S) : Res (PMap K S) := do
  let r ← prune m.cfg (fun p => sel p.1) c.data
  let heap ← delAll c.heap ((r.2.filter (fun p => sel p.1)).map (·.2))
  pure ⟨r.1, heap⟩

/-- `clear`, `HashTupleStats.hpp:244-249`, and the loop of `StatsCube.hpp:241-244`; also what the destructors do. -/
def pclear (c : PMap K S) : Res (PMap K S) := do
  let l ← walk c.data
  let heap ← delAll c.heap (l.map (·.2))
  pure ⟨clear c.data, heap⟩

end

/-- Template and constructor parameters. Part of the model of `HashTupleStats.hpp:30-249`. -/
structure Params (α S D : Type) where
  field : Field α
  full : Nat → Nat → Bool
  dflt : α
  fresh : S
  add : S → D → S
  merge : S → S → S
  /-- `OptionalCubeFn` -/
  wanted : Bool → AnyTuple α → Bool

variable {α S D : Type} (P : Params α S D)

/-- `HTSMap`, `HashTupleStats.hpp:105`. -/
def baseCfg : MapCfg (List α) (Option Nat) :=
  { kh := fun k => (tupleHash P.field k).toNat, ke := tupleEq P.field, full := P.full, dk := [], dv := none }

/-- `PartialTupleCubeMap`, `StatsCube.hpp:64`. -/
def cubeCfg : MapCfg (AnyTuple α) (Option Nat) :=
  { kh := fun k => (k.hash P.field).toNat, ke := fun a b => a.eq P.field b, full := P.full, dk := ⟨[], []⟩, dv := none }

/-- `HashUnique` of one column, `HashTupleStats.hpp:30-42`. -/
def colCfg : Cfg α := { hash := fun x => (P.field.hash x).toNat, eq := P.field.eq, full := P.full, dflt := P.dflt }

/-- `HashTupleStats::add`, `HashTupleStats.hpp:129-131`. -/
def htsAdd (c : PMap (List α) S) (k : List α) (d : D) : Res (PMap (List α) S) := update (baseCfg P) P.fresh c k (fun s => P.add s d)

/-! ## Zero walk -/

/-- `hashUniqueTupleAdd`, `HashTupleStats.hpp:44-51`. -/
def hutAdd : List (Table α) → List α → Res (List (Table α))
  | h :: hs, x :: xs => do
    let r ← uAdd (colCfg P) h x
    let hs ← hutAdd hs xs
    pure (r.1 :: hs)
  | hs, _ => .ok hs

/-- Used in the model of `HashTupleStats.hpp:182-186` (`fillHut`). -/
def hutAddAll : List (Table α) → List (List α) → Res (List (Table α))
  | hut, [] => .ok hut
  | hut, k :: ks => do
    let hut ← hutAdd P hut k
    hutAddAll hut ks

/-- `fillHashUniqueTuple`, `HashTupleStats.hpp:182-186`, into `arity` empty sets. -/
def fillHut (arity : Nat) (c : PMap (List α) S) : Res (List (Table α)) := do
  let l ← walk c.data
  hutAddAll P (List.replicate arity empty') (l.map (·.1))

/-- A loop collecting the calls made by its body. Used in the model of `HashTupleStats.hpp:62-89` (`zeroWalk`). -/
def forEach {β γ : Type} (body : β → Res (List γ)) : List β → Res (List γ)
  | [] => .ok []
  | x :: xs => do
    let a ← body x
    let b ← forEach body xs
    pure (a ++ b)

/-- `zeroWalk`, `HashTupleStats.hpp:62-89`; `key` is the part of the key filled in so far. -/
def zeroWalk (c : PMap (List α) S) (zero : S) : List (Table α) → List α → Res (List (List α × S))
  | [], key => do
    let r ← mLookup (baseCfg P) c.data key
    match r with
    | none => pure [(key, zero)]
    | some p => do
      let s ← rdPtr c.heap p
      pure [(key, s)]
  | h :: hs, key => do
    let vs ← walk h
    forEach (fun v => zeroWalk c zero hs (key ++ [v])) vs

/-- `walkZeros` with a given tuple of sets, `HashTupleStats.hpp:193-204`; `zeroValue` is `0`. -/
def walkZerosIn (zeroValue : D) (c : PMap (List α) S) (hut : List (Table α)) (countZeros : Bool) : Res (List (List α × S)) :=
  zeroWalk P c (if countZeros then P.add P.fresh zeroValue else P.fresh) hut []

/-- `walkZeros`, `HashTupleStats.hpp:171-177`. -/
def walkZeros (zeroValue : D) (arity : Nat) (c : PMap (List α) S) (countZeros : Bool) : Res (List (List α × S)) := do
  let hut ← fillHut P arity c
  walkZerosIn P zeroValue c hut countZeros

/-! ## Cube -/

/-- Used in the model of `StatsCube.hpp:119-130` (`cubeAll`). -/
structure Cube (α S : Type) where
  base : PMap (List α) S
  cube : PMap (AnyTuple α) S

/-- Used in the model of `HashTupleStats.hpp:208-216` (`PMap.empty`). -/
def Cube.empty : Cube α S := ⟨.empty, .empty⟩

/-- `cubeAddOne`, `StatsCube.hpp:259-271`. The key is passed by reference; its bits after the call are returned. -/
def cubeAddOne (value : S) : Nat → AnyTuple α → Nat → Bool → PMap (AnyTuple α) S → Res (AnyTuple α × PMap (AnyTuple α) S)
  | fuel, key, pos, hadAny, c =>
    if pos = key.any.length then
      if P.wanted hadAny key then do
        let c ← update (cubeCfg P) P.fresh c key (fun s => P.merge s value)
        pure (key, c)
      else pure (key, c)
    else match fuel with
      | 0 => .ub
      | fuel + 1 => do
        let r ← cubeAddOne value fuel ⟨key.data, key.any.set pos false⟩ (pos + 1) hadAny c
        cubeAddOne value fuel ⟨r.1.data, r.1.any.set pos true⟩ (pos + 1) true r.2

/-- `addToCube`, `StatsCube.hpp:169-173`; the new key has no wildcard, `Tuples.hpp:236`. -/
def addToCube (c : PMap (AnyTuple α) S) (k : List α) (value : S) : Res (PMap (AnyTuple α) S) := do
  let r ← cubeAddOne P value k.length ⟨k, List.replicate k.length false⟩ 0 false c
  pure r.2

/-- Used in the model of `StatsCube.hpp:119-130` (`cubeAll`). -/
def addAllToCube : PMap (AnyTuple α) S → List (List α × S) → Res (PMap (AnyTuple α) S)
  | c, [] => .ok c
  | c, x :: xs => do
    let c ← addToCube P c x.1 x.2
    addAllToCube c xs

/-- `cube`, `StatsCube.hpp:119-130`. -/
def cubeAll (c : Cube α S) : Res (Cube α S) := do
  let l ← pwalk c.base
  let q ← addAllToCube P c.cube l
  pure ⟨c.base, q⟩

/-- `zeroCube` with a given tuple of sets, `StatsCube.hpp:157-161`. -/
def zeroCubeIn (zeroValue : D) (c : Cube α S) (hut : List (Table α)) (countZeros : Bool) : Res (Cube α S) := do
  let l ← walkZerosIn P zeroValue c.base hut countZeros
  let q ← addAllToCube P c.cube l
  pure ⟨c.base, q⟩

/-- `zeroCube`, `StatsCube.hpp:137-149`. -/
def zeroCube (zeroValue : D) (arity : Nat) (c : Cube α S) (countZeros : Bool) : Res (Cube α S) := do
  let hut ← fillHut P arity c.base
  zeroCubeIn P zeroValue c hut countZeros

/-! ## Histories -/

/-- Calls on a `StatsCube` (and its public `base_data`). Not a function of the code; stands for the uses of `StatsCube.hpp:137-173`. -/
inductive Op (α S D : Type) where
  | add (k : List α) (d : D)
  | addToCube (k : List α) (s : S)
  | cube
  | zeroCube (zeroValue : D) (countZeros : Bool)
  | walkBase
  | walkBaseOrdered
  | walkZeros (zeroValue : D) (countZeros : Bool)
  | walk
  | walkOrdered
  | baseSize
  | size
  | pruneBase (sel : List α → Bool)
  | prune (sel : AnyTuple α → Bool)
  | clear (clearBase : Bool)

/-- Not a function of the code; stands for the uses of `HashTupleStats.hpp:105-249`. -/
inductive Out (α S : Type) where
  | unit
  | nat (n : Nat)
  | base (l : List (List α × S))
  | cube (l : List (AnyTuple α × S))

/-- Not a function of the code; stands for the uses of `HashTupleStats.hpp:105-249`. -/
def step (arity : Nat) (c : Cube α S) : Op α S D → Res (Cube α S × Out α S)
  | .add k d => do
    let b ← htsAdd P c.base k d
    pure (⟨b, c.cube⟩, .unit)
  | .addToCube k s => do
    let q ← addToCube P c.cube k s
    pure (⟨c.base, q⟩, .unit)
  | .cube => do
    let c ← cubeAll P c
    pure (c, .unit)
  | .zeroCube z cz => do
    let c ← zeroCube P z arity c cz
    pure (c, .unit)
  | .walkBase => do
    let l ← pwalk c.base
    pure (c, .base l)
  | .walkBaseOrdered => do
    let l ← pwalkOrdered (tupleLt P.field) c.base
    pure (c, .base l)
  | .walkZeros z cz => do
    let l ← walkZeros P z arity c.base cz
    pure (c, .base l)
  | .walk => do
    let l ← pwalk c.cube
    pure (c, .cube l)
  | .walkOrdered => do
    let l ← pwalkOrdered (fun a b => a.lt P.field b) c.cube
    pure (c, .cube l)
  | .baseSize => pure (c, .nat (size c.base.data))
  | .size => pure (c, .nat (size c.cube.data))
  | .pruneBase sel => do
    let b ← pprune (baseCfg P) sel c.base
    pure (⟨b, c.cube⟩, .unit)
  | .prune sel => do
    let q ← pprune (cubeCfg P) sel c.cube
    pure (⟨c.base, q⟩, .unit)
  | .clear clearBase => do
    let b ← if clearBase then pclear c.base else pure c.base
    let q ← pclear c.cube
    pure (⟨b, q⟩, .unit)

/-- Not a function of the code; stands for the uses of `StatsCube.hpp:119-173`. -/
def run (arity : Nat) (c : Cube α S) : List (Op α S D) → Res (Cube α S × List (Out α S))
  | [] => .ok (c, [])
  | op :: ops => do
    let r ← step P arity c op
    let q ← run arity r.1 ops
    pure (q.1, r.2 :: q.2)

end Verif.Cube
