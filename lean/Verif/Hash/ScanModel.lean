import Verif.Hash.TableModel

/-!
# Scanning a `HashTable` a part at a time (`/repo/include/Lintel/HashTable.hpp:298-332`)

The use the comments at `HashTable.hpp:298-302` and `311-316` describe: step an iterator for a while, stop, change the
table, bring the iterator back with `partialReset()` and go on. The client keeps what it was shown in `seen`; `tabs`
collects the states the table goes through and no step depends on it.
-/

namespace Verif.Hash

variable {α : Type}

/-- `atStartOfChain`, `HashTable.hpp:317-320`. -/
def atStartOfChain (t : Table α) (it : Iter) : Res Bool :=
  if it.chain = t.entry.length then .ok true
  else do
    let o ← rd t.entry it.chain
    pure (decide (o = it.loc))

/-- `atEndOfChain`, `HashTable.hpp:324-327`; `chains[-1]` is undefined. -/
def atEndOfChain (t : Table α) (it : Iter) : Res Bool :=
  if it.chain = t.entry.length then .ok true
  else match it.loc with
    | none => .ub
    | some i => do
      let e ← rd t.chains i
      pure e.next.isNone

/-- A scan under way. Used in the model of `HashTable.hpp:317-320` (`toNextChain`). -/
structure Scan (α : Type) where
  t : Table α
  it : Iter
  seen : List α
  tabs : List (Table α)
deriving DecidableEq

/-- `it = begin()`. Made of the parts of `HashTable.hpp:317-320`. -/
def startScan (t : Table α) : Scan α := ⟨t, begin' t, [], [t]⟩

/-- Calls on the table one after the other, with the states after each. Used in the model of `HashTable.hpp:317-320` (`pause`). -/
def tStates (c : Cfg α) : Table α → List (TOp α) → Res (Table α × List (Table α))
  | t, [] => .ok (t, [])
  | t, op :: ops => do
    let r ← tStep c t op
    let q ← tStates c r.1 ops
    pure (q.1, r.1 :: q.2)

/-- What the client does next. Used in the model of `HashTable.hpp:317-320` (`sStep`). -/
inductive SStep (α : Type) where
  /-- look at `*it`, then `++it` -/
  | visit
  /-- some calls on the table, then `it.partialReset()` -/
  | pause (ops : List (TOp α))
deriving Repr

/-- Used in the model of `HashTable.hpp:317-320` (`toNextChain`). -/
def visit (s : Scan α) : Res (Scan α) := do
  let v ← itDeref s.t s.it
  let it ← incr s.t s.it
  pure { s with it := it, seen := s.seen ++ [v] }

/-- Made of the parts of `HashTable.hpp:317-320`. -/
def pause (c : Cfg α) (s : Scan α) (ops : List (TOp α)) : Res (Scan α) := do
  let r ← tStates c s.t ops
  let it ← partialReset r.1 s.it
  pure ⟨r.1, it, s.seen, s.tabs ++ r.2⟩

/-- Made of the parts of `HashTable.hpp:317-320`. -/
def sStep (c : Cfg α) (s : Scan α) : SStep α → Res (Scan α)
  | .visit => visit s
  | .pause ops => pause c s ops

/-- Made of the parts of `HashTable.hpp:317-320`. -/
def sRun (c : Cfg α) : Scan α → List (SStep α) → Res (Scan α)
  | s, [] => .ok s
  | s, x :: xs => do
    let s ← sStep c s x
    sRun c s xs

/-- `do { visit } while (!it.atStartOfChain())`: "partial iteration until you get to the beginning of a new chain". Made of the parts of `HashTable.hpp:317-320`. -/
def toNextChain : Nat → Scan α → Res (Scan α)
  | 0, _ => .ub
  | fuel + 1, s => do
    let s ← visit s
    let b ← atStartOfChain s.t s.it
    if b then pure s else toNextChain fuel s

/-- The scan the comments recommend: a chain, then some calls, as long as there are entries. Made of the parts of `HashTable.hpp:317-320`. -/
def chainScan (c : Cfg α) : Scan α → List (List (TOp α)) → Res (Scan α)
  | s, [] => .ok s
  | s, ops :: rest =>
    if s.it = end' s.t then .ok s
    else do
      let s ← toNextChain (s.t.chains.length + 1) s
      let s ← pause c s ops
      chainScan c s rest

end Verif.Hash
