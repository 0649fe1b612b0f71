import Verif.Res

/-!
# Model of `HashTable` (`/repo/include/Lintel/HashTable.hpp`)

Indices into the slot vector that the code stores as `int32_t` with `-1` for "none" are
`Option Nat`. Storing an index of `2^31` or more is `ub` (the cast makes it negative).
Pointers `D *` into the slot vector are slot numbers.
Loops along a chain carry a fuel of one more than the number of slots; running out is `ub`
(the loop would not end).
-/

namespace Verif.Hash

/-- The template parameters and constructor argument. `full n m` is the growth test
`chains.size() >= target_chain_length * entry_points.size()` with `n` slots and `m` buckets;
`dflt` is `D()`. Used in the model of `HashTable.hpp:667-671` (`rehashLoop`). -/
structure Cfg (α : Type) where
  hash : α → Nat
  eq : α → α → Bool
  full : Nat → Nat → Bool
  dflt : α

/-- `HashTable_hte`, `HashTable.hpp:27-35`. -/
structure Entry (α : Type) where
  data : α
  next : Option Nat
deriving Repr, DecidableEq

/-- The data members, `HashTable.hpp:674-678`. -/
structure Table (α : Type) where
  entry : List (Option Nat)
  chains : List (Entry α)
  free : Option Nat
  freeSize : Nat
deriving Repr, DecidableEq

/-- Vector element access. Used in the model of `HashTable.hpp:667-671` (`rehashLoop`). -/
def rd {β : Type} (l : List β) (i : Nat) : Res β :=
  match l[i]? with
  | some v => .ok v
  | none => .ub

/-- Vector element assignment. Used in the model of `HashTable.hpp:667-671` (`rehashLoop`). -/
def wr {β : Type} (l : List β) (i : Nat) (v : β) : Res (List β) :=
  if i < l.length then .ok (l.set i v) else .ub

/-- `HashTable_prime_list`, `HashTable.cpp:15-19`. -/
def primes : List Nat :=
  [5, 23, 107, 433, 1543, 6091, 24281, 100169, 487651, 1179589, 2471093, 7368787, 32452843,
   141650939, 0]

/-- The search loops over the prime list, `HashTable.hpp:503-506` and `652-655`: advance while
`small` holds. -/
def primeLoop (small : Nat → Bool) : List Nat → Res Nat
  | [] => .ub
  | p :: ps =>
    if small p then do
      Res.require (decide (p ≠ 0))
      primeLoop small ps
    else .ok p

variable {α : Type}

/-- Constructor and `init`, `HashTable.hpp:101-106`, `615-628`. -/
def empty' : Table α := { entry := [], chains := [], free := none, freeSize := 0 }

/-- The relinking loop, `HashTable.hpp:667-671`, `n` iterations from `i`. -/
def rehashLoop (c : Cfg α) (newSize i : Nat) (entry : List (Option Nat)) (chains : List (Entry α)) :
    Nat → Res (List (Option Nat) × List (Entry α))
  | 0 => .ok (entry, chains)
  | n + 1 => do
    let e ← rd chains i
    let h := c.hash e.data % newSize
    let nx ← rd entry h
    let chains ← wr chains i { e with next := nx }
    let entry ← wr entry h (some i)
    rehashLoop c newSize (i + 1) entry chains n

/-- `resizeHashTable`, `HashTable.hpp:647-672`. -/
def resize (c : Cfg α) (t : Table α) : Res (Table α) := do
  Res.require (decide (t.free = none ∧ t.freeSize = 0))
  let oldSize := t.entry.length
  let newSize ← primeLoop (fun p => decide (p ≤ oldSize)) primes
  let entry := t.entry ++ List.replicate (newSize - oldSize) none
  let entry := List.replicate oldSize none ++ entry.drop oldSize
  let chains := t.chains.map fun e => { e with next := none }
  let r ← rehashLoop c newSize 0 entry chains chains.length
  pure { t with entry := r.1, chains := r.2 }

/-- The growth test at the head of `internalAdd`, `HashTable.hpp:564-567`. -/
def maybeResize (c : Cfg α) (t : Table α) : Res (Table α) :=
  if t.free = none ∧ c.full t.chains.length t.entry.length = true then resize c t else pure t

/-- `internalAdd`, `HashTable.hpp:563-590`. Returns the slot used. -/
def add (c : Cfg α) (t : Table α) (data : α) : Res (Table α × Nat) := do
  let t ← maybeResize c t
  Res.require (decide (t.entry.length > 0))
  let h := c.hash data % t.entry.length
  match t.free with
  | none =>
    if t.chains.length ≥ 2147483648 then .ub
    else do
      let nx ← rd t.entry h
      let entry ← wr t.entry h (some t.chains.length)
      pure ({ t with entry := entry, chains := t.chains ++ [⟨data, nx⟩] }, t.chains.length)
  | some loc => do
    let e ← rd t.chains loc
    let nx ← rd t.entry h
    let chains ← wr t.chains loc ⟨data, nx⟩
    let entry ← wr t.entry h (some loc)
    pure ({ entry := entry, chains := chains, free := e.next, freeSize := t.freeSize - 1 }, loc)

/-- The loop of `staticInternalLookup` (and `find`), `HashTable.hpp:598-603`. -/
def lookupLoop (c : Cfg α) (key : α) (chains : List (Entry α)) : Nat → Option Nat → Res (Option Nat)
  | 0, _ => .ub
  | _ + 1, none => .ok none
  | fuel + 1, some i => do
    let e ← rd chains i
    if c.eq key e.data then pure (some i) else lookupLoop c key chains fuel e.next

/-- `internal_lookup`/`lookup`, `HashTable.hpp:137-156`, `592-613`. Returns the slot. -/
def lookup (c : Cfg α) (t : Table α) (key : α) : Res (Option Nat) :=
  if t.entry.length = 0 then .ok none
  else do
    let o ← rd t.entry (c.hash key % t.entry.length)
    lookupLoop c key t.chains (t.chains.length + 1) o

/-- `*p` for a `D *` returned by the table. Used in the model of `HashTable.hpp:286-291` (`itDeref`). -/
def deref (t : Table α) (loc : Nat) : Res α := do
  let e ← rd t.chains loc
  pure e.data

/-- `*p = v` for a `D *` returned by the table. Made of the parts of `HashTable.hpp:674-678`. -/
def store (t : Table α) (loc : Nat) (v : α) : Res (Table α) := do
  let e ← rd t.chains loc
  let chains ← wr t.chains loc { e with data := v }
  pure { t with chains := chains }

/-- `addOrReplace`, `HashTable.hpp:123-133`. Returns slot and `replaced`. -/
def addOrReplace (c : Cfg α) (t : Table α) (data : α) : Res (Table α × Nat × Bool) := do
  let r ← lookup c t data
  match r with
  | some loc => pure (t, loc, true)
  | none => do
    let r ← add c t data
    pure (r.1, r.2, false)

/-- The inner `while(true)` of `remove`, `HashTable.hpp:224-240`: `loc` is the slot just found
not to match. -/
def removeLoop (c : Cfg α) (key : α) (mustExist : Bool) (t : Table α) : Nat → Nat → Res (Table α × Bool)
  | 0, _ => .ub
  | fuel + 1, prev => do
    let p ← rd t.chains prev
    match p.next with
    | none => do
      Res.require (!mustExist)
      pure (t, false)
    | some loc => do
      let e ← rd t.chains loc
      if c.eq key e.data then do
        let chains ← wr t.chains prev { p with next := e.next }
        let chains ← wr chains loc ⟨c.dflt, t.free⟩
        pure ({ t with chains := chains, free := some loc, freeSize := t.freeSize + 1 }, true)
      else removeLoop c key mustExist t fuel loc

/-- `remove`, `HashTable.hpp:200-243`. -/
def remove (c : Cfg α) (t : Table α) (key : α) (mustExist : Bool) : Res (Table α × Bool) :=
  if t.entry.length = 0 then do
    Res.require (!mustExist)
    pure (t, false)
  else do
    let h := c.hash key % t.entry.length
    let o ← rd t.entry h
    match o with
    | none => do
      Res.require (!mustExist)
      pure (t, false)
    | some loc => do
      let e ← rd t.chains loc
      if c.eq key e.data then do
        let chains ← wr t.chains loc ⟨c.dflt, t.free⟩
        let entry ← wr t.entry h e.next
        pure ({ entry := entry, chains := chains, free := some loc, freeSize := t.freeSize + 1 }, true)
      else removeLoop c key mustExist t (t.chains.length + 1) loc

/-- `clear`, `HashTable.hpp:245-252`. -/
def clear (t : Table α) : Table α :=
  { entry := t.entry.map fun _ => none, chains := [], free := none, freeSize := 0 }

/-- `size`, `HashTable.hpp:477-481`. -/
def size (t : Table α) : Nat := t.chains.length - t.freeSize

/-- `reserve`, `HashTable.hpp:496-510`; `want` is `expected_entries / target_chain_length`.
`vector::resize` cuts or fills with `-1`. -/
def reserve (t : Table α) (want : Nat) : Res (Table α) := do
  Res.require (decide (t.chains.length = 0))
  let newSize ← primeLoop (fun p => decide (p < want)) primes
  pure { t with entry := t.entry.take newSize ++ List.replicate (newSize - t.entry.length) none }

/-- `dense`, `HashTable.hpp:537-539`. -/
def dense (t : Table α) : Bool := t.free.isNone

/-! ## `randomlookup`, `HashTable.hpp:168-197` -/

/-- First loop, `174-178`: find a non-empty chain. -/
def nonemptyLoop (t : Table α) (start : Nat) : Nat → Nat → Res (Nat × Nat)
  | 0, _ => .ub
  | fuel + 1, chain => do
    let o ← rd t.entry chain
    match o with
    | some j => pure (chain, j)
    | none => do
      let chain := (chain + 1) % t.entry.length
      Res.require (decide (chain ≠ start))
      nonemptyLoop t start fuel chain

/-- Second loop, `180-183`: chain length. -/
def chainLen (t : Table α) : Nat → Option Nat → Res Nat
  | 0, _ => .ub
  | _ + 1, none => .ok 0
  | fuel + 1, some j => do
    let e ← rd t.chains j
    let n ← chainLen t fuel e.next
    pure (n + 1)

/-- Third loop, `188-195`: the `bucket`-th entry of the chain; `abort` is the `FATAL_ERROR`. -/
def pickLoop (t : Table α) : Nat → Nat → Option Nat → Res Nat
  | 0, _, _ => .ub
  | _ + 1, _, none => .abort
  | fuel + 1, bucket, some j =>
    match bucket with
    | 0 => .ok j
    | b + 1 => do
      let e ← rd t.chains j
      pickLoop t fuel b e.next

/-- `randomlookup`. Made of the parts of `HashTable.hpp:477-678`. -/
def randomlookup (t : Table α) (randa randb : Nat) : Res (Option Nat) :=
  if size t = 0 then .ok none
  else if t.entry.length = 0 then .ub
  else do
    let start := randa % t.entry.length
    let r ← nonemptyLoop t start (t.entry.length + 1) start
    let len ← chainLen t (t.chains.length + 1) (some r.2)
    Res.require (decide (len > 0))
    let loc ← pickLoop t (t.chains.length + 1) (randb % len) (some r.2)
    pure (some loc)

/-! ## Iterators, `HashTable.hpp:267-368` -/

/-- `cur_chain`, `chain_loc`. Used in the model of `HashTable.hpp:346-354` (`findNonempty`). -/
structure Iter where
  chain : Nat
  loc : Option Nat
deriving Repr, DecidableEq

/-- `findNonemptyChain`, `HashTable.hpp:346-354`; fuel is the number of buckets left. -/
def findNonempty (entry : List (Option Nat)) : Nat → Iter → Iter
  | 0, it => it
  | n + 1, it =>
    match entry[it.chain]? with
    | none => it
    | some (some j) => { it with loc := some j }
    | some none => findNonempty entry n { it with chain := it.chain + 1 }

/-- `begin`, `HashTable.hpp:394-396`. -/
def begin' (t : Table α) : Iter := findNonempty t.entry (t.entry.length + 1) { chain := 0, loc := none }

/-- `end`, `HashTable.hpp:398-400`. -/
def end' (t : Table α) : Iter :=
  findNonempty t.entry (t.entry.length + 1) { chain := t.entry.length, loc := none }

/-- `increment`, `HashTable.hpp:355-364`. -/
def incr (t : Table α) (it : Iter) : Res Iter :=
  match it.loc with
  | none => .abort
  | some i => do
    Res.require (decide (i < t.chains.length))
    let e ← rd t.chains i
    match e.next with
    | some j => pure { it with loc := some j }
    | none => pure (findNonempty t.entry (t.entry.length + 1) { chain := it.chain + 1, loc := none })

/-- `operator*`, `HashTable.hpp:286-291`. -/
def itDeref (t : Table α) (it : Iter) : Res α :=
  match it.loc with
  | none => .abort
  | some i => do
    Res.require (decide (i < t.chains.length))
    deref t i

/-- `partialReset`, `HashTable.hpp:303-310`. -/
def partialReset (t : Table α) (it : Iter) : Res Iter :=
  if it.chain < t.entry.length then do
    let o ← rd t.entry it.chain
    pure (findNonempty t.entry (t.entry.length + 1) { it with loc := o })
  else do
    Res.require (decide (it.chain = t.entry.length))
    pure it

/-- `reset`, `HashTable.hpp:329-332`. -/
def reset (t : Table α) (it : Iter) : Iter :=
  findNonempty t.entry (t.entry.length + 1) { it with chain := 0 }

/-- `find`, `HashTable.hpp:402-413`. -/
def find (c : Cfg α) (t : Table α) (key : α) : Res Iter :=
  if t.entry.length = 0 then .ok (end' t)
  else do
    let h := c.hash key % t.entry.length
    let o ← rd t.entry h
    let r ← lookupLoop c key t.chains (t.chains.length + 1) o
    match r with
    | some i => pure { chain := h, loc := some i }
    | none => pure (end' t)

/-- The `while` of `erase`, `HashTable.hpp:424-428`: the slot before `target` on the chain. -/
def eraseLoop (chains : List (Entry α)) (target : Nat) : Nat → Option Nat → Nat → Res (Option Nat)
  | 0, _, _ => .ub
  | fuel + 1, prev, cur =>
    if cur = target then .ok prev
    else do
      let e ← rd chains cur
      match e.next with
      | none => .ub
      | some nx => eraseLoop chains target fuel (some cur) nx

/-- `erase`, `HashTable.hpp:419-437`. -/
def erase (c : Cfg α) (t : Table α) (it : Iter) : Res (Table α) :=
  match it.loc with
  | none => .ub
  | some loc => do
    let e ← rd t.chains loc
    let chains ← wr t.chains loc { e with data := c.dflt }
    let o ← rd t.entry it.chain
    match o with
    | none => .ub
    | some first => do
      let prev ← eraseLoop chains loc (t.chains.length + 1) none first
      match prev with
      | none => do
        let entry ← wr t.entry it.chain e.next
        let chains ← wr chains loc ⟨c.dflt, t.free⟩
        pure { entry := entry, chains := chains, free := some loc, freeSize := t.freeSize + 1 }
      | some p => do
        let pe ← rd chains p
        let chains ← wr chains p { pe with next := e.next }
        let chains ← wr chains loc ⟨c.dflt, t.free⟩
        pure { t with chains := chains, free := some loc, freeSize := t.freeSize + 1 }

/-- The client loop `for (it = begin(); it != end(); ++it) out.push_back(*it)`. Made of the parts of `HashTable.hpp:286-678`. -/
def walkFrom (t : Table α) : Nat → Iter → Res (List α)
  | 0, _ => .ub
  | fuel + 1, it =>
    if it = end' t then .ok []
    else do
      let v ← itDeref t it
      let it ← incr t it
      let vs ← walkFrom t fuel it
      pure (v :: vs)

/-- Made of the parts of `HashTable.hpp:394-678`. -/
def walk (t : Table α) : Res (List α) := walkFrom t (t.chains.length + 1) (begin' t)

/-- The prune idiom, `HashTupleStats.hpp:231-241`, `StatsCube.hpp:221-231`: remove the current
entry when `sel` says so and reposition with `partialReset`, otherwise step. Also returns the
entries handed to `sel`, in order. -/
def pruneLoop (c : Cfg α) (sel : α → Bool) : Nat → Table α → Iter → Res (Table α × List α)
  | 0, _, _ => .ub
  | fuel + 1, t, it =>
    if it = end' t then .ok (t, [])
    else do
      let v ← itDeref t it
      if sel v then do
        let r ← remove c t v true
        let it ← partialReset r.1 it
        let q ← pruneLoop c sel fuel r.1 it
        pure (q.1, v :: q.2)
      else do
        let it ← incr t it
        let q ← pruneLoop c sel fuel t it
        pure (q.1, v :: q.2)

end Verif.Hash
