import Verif.Hash.Model

/-! # Client histories of a `HashTable` -/

namespace Verif.Hash

variable {α : Type}

/-- Calls on a `HashTable`. `findErase k` is `it = find(k); if (it != end()) erase(it)`; `walk` is a
loop from `begin()` to `end()`; `random` is `randomlookup`. Made of the parts of `HashTable.hpp:123-590`. -/
inductive TOp (α : Type) where
  | add (d : α)
  | addOrReplace (d : α)
  | lookup (k : α)
  | remove (k : α) (mustExist : Bool)
  | findErase (k : α)
  | clear
  | reserve (want : Nat)
  | size
  | walk
  | random (a b : Nat)
deriving Repr

/-- What a call shows to its caller: pointers are shown as the value they point at. Used in the model of `HashTable.hpp:123-678` (`tStep`). -/
inductive TOut (α : Type) where
  | unit
  | bool (b : Bool)
  | opt (v : Option α)
  | repl (v : α) (replaced : Bool)
  | nat (n : Nat)
  | list (l : List α)
deriving Repr, DecidableEq

/-- Value behind a returned pointer. Made of the parts of `HashTable.hpp:674-678`. -/
def derefOpt (t : Table α) : Option Nat → Res (Option α)
  | none => .ok none
  | some loc => do
    let v ← deref t loc
    pure (some v)

/-- `it = find(k); if (it != end()) erase(it)`. Used in the model of `HashTable.hpp:123-590` (`TOp`). -/
def findErase (c : Cfg α) (t : Table α) (k : α) : Res (Table α × Bool) := do
  let it ← find c t k
  if it = end' t then pure (t, false)
  else do
    let t ← erase c t it
    pure (t, true)

/-- One call. Made of the parts of `HashTable.hpp:123-678`. -/
def tStep (c : Cfg α) (t : Table α) : TOp α → Res (Table α × TOut α)
  | .add d => do
    let r ← add c t d
    let v ← deref r.1 r.2
    pure (r.1, .opt (some v))
  | .addOrReplace d => do
    let r ← addOrReplace c t d
    let v ← deref r.1 r.2.1
    pure (r.1, .repl v r.2.2)
  | .lookup k => do
    let r ← lookup c t k
    let v ← derefOpt t r
    pure (t, .opt v)
  | .remove k m => do
    let r ← remove c t k m
    pure (r.1, .bool r.2)
  | .findErase k => do
    let r ← findErase c t k
    pure (r.1, .bool r.2)
  | .clear => pure (clear t, .unit)
  | .reserve want => do
    let t ← reserve t want
    pure (t, .unit)
  | .size => pure (t, .nat (size t))
  | .walk => do
    let l ← walk t
    pure (t, .list l)
  | .random a b => do
    let r ← randomlookup t a b
    let v ← derefOpt t r
    pure (t, .opt v)

/-- A whole history; the result is the list of what the calls returned. Made of the parts of `HashTable.hpp:123-678`. -/
def tRun (c : Cfg α) : Table α → List (TOp α) → Res (List (TOut α))
  | _, [] => .ok []
  | t, op :: ops => do
    let r ← tStep c t op
    let outs ← tRun c r.1 ops
    pure (r.2 :: outs)

end Verif.Hash
