import Verif.Str.Model

/-!
# Model of the debug levels of `LintelLog` (`/repo/src/LintelLog.cpp`)

Modelled: the table of categories, the patterns, the levels, the capacities that are fixed
at start, the warning about running out of categories, and the parsing of the debug string
(in `Verif/Log/Parse.lean`).  `category2id` is a `HashMap`; it is used here as the finite map
it implements (C01), kept as a list of (name, id) pairs.

Not modelled: the mutex (the functions are one critical section each), the appenders and the
text of messages.  `vector::reserve(n)` gives capacity exactly `max n capacity`, as in
libstdc++.
-/

namespace Verif.Log
open Verif.Str

/-- `LintelLog::instance_data`, `LintelLog.hpp:286-300`. -/
structure Data where
  /-- `category2id` -/
  ids : List (Str × Nat)
  /-- `debug_levels` -/
  levels : List Nat
  /-- `debug_levels.capacity()` -/
  cap : Nat
  /-- `complex_matches`: (prefix, level) -/
  pats : List (Str × Nat)
  /-- `complex_matches.capacity()` -/
  pcap : Nat
  /-- the static `generated_warning` of `maybeCategoryLimitWarning` -/
  warned : Bool
deriving DecidableEq, Repr

/-- `instance_data::instance_data`, `LintelLog.cpp:285-288`. -/
def init : Data := { ids := [], levels := [], cap := 4000, pats := [], pcap := 100, warned := false }

/-- Conversion to `uint8_t` (the type of `setDebugLevel`'s second argument). Used in the model of `LintelLog.cpp:75-114` (`setDebugLevel`). -/
def u8 (x : Nat) : Nat := x % 256

/-- The level of a new category: the first matching pattern, `LintelLog.cpp:256-263`. -/
def initialLevel (pats : List (Str × Nat)) (c : Str) : Nat :=
  match pats.find? (fun p => prefixequal c p.1) with
  | some p => p.2
  | none => 0

/-- `lockedCategoryToId`, `LintelLog.cpp:244-266`. -/
def lockedCategoryToId (s : Data) (c : Str) : Res (Nat × Data) :=
  match s.ids.find? (fun e => e.1 == c) with
  | some e => .ok (e.2, s)
  | none => do
    let ret := s.levels.length
    Res.require (decide (ret < s.cap))
    .ok (ret, { s with ids := s.ids ++ [(c, ret)], levels := s.levels ++ [initialLevel s.pats c] })

/-- `maybeCategoryLimitWarning`, `LintelLog.cpp:232-242`; `id * 5` is a `uint32_t`. -/
def limitWarning (s : Data) (id : Nat) : Data :=
  if (id * 5) % 2 ^ 32 / 4 ≥ s.cap then { s with warned := true } else s

/-- `categoryToId`, `LintelLog.cpp:222-230`: what the constructor of `Category`
(`LintelLog.hpp:143-149`) and `setKnownCategories` (`LintelLog.cpp:68-73`) do. -/
def categoryToId (s : Data) (c : Str) : Res (Nat × Data) := do
  let r ← lockedCategoryToId s c
  pure (r.1, limitWarning r.2 r.1)

/-- `debug_levels[id] = level`. Used in the model of `LintelLog.cpp:100-105` (`updateAll`). -/
def setAt (levels : List Nat) (id lv : Nat) : Res (List Nat) :=
  if id < levels.length then .ok (levels.set id lv) else .ub

/-- The update of the existing categories, `LintelLog.cpp:100-105`. -/
def updateAll (pre : Str) (lv : Nat) : List (Str × Nat) → List Nat → Res (List Nat)
  | [], levels => .ok levels
  | e :: es, levels =>
    if prefixequal e.1 pre then do
      let l' ← setAt levels e.2 lv
      updateAll pre lv es l'
    else updateAll pre lv es levels

/-- `setDebugLevel`, `LintelLog.cpp:75-114`; 42 is `'*'`. -/
def setDebugLevel (s : Data) (name : Str) (level : Nat) : Res Data :=
  let lv := u8 level
  if name.getLast? = some 42 then do
    Res.require (decide (s.pats.length < s.pcap))
    let levels ← updateAll name.dropLast lv s.ids s.levels
    pure { s with pats := s.pats ++ [(name.dropLast, lv)], levels := levels }
  else do
    let r ← lockedCategoryToId s name
    Res.require (decide (r.1 < r.2.levels.length))
    let levels ← setAt r.2.levels r.1 lv
    pure (limitWarning { r.2 with levels := levels } r.1)

/-- `reserveCategories`, `LintelLog.cpp:36-42`. -/
def reserveCategories (s : Data) (n : Nat) : Res Data := do
  Res.require (decide (n ≥ s.levels.length))
  pure { s with cap := max s.cap n }

/-- `wouldDebug(const Category &, level)`, `LintelLog.hpp:153-155`. -/
def wouldDebugId (s : Data) (id level : Nat) : Res Bool :=
  match s.levels[id]? with
  | some v => .ok (decide (v ≥ level))
  | none => .ub

/-- `getDebugLevel(const Category &)`, `LintelLog.hpp:157-159`. -/
def getDebugLevel (s : Data) (id : Nat) : Res Nat :=
  match s.levels[id]? with
  | some v => .ok v
  | none => .ub

/-- `wouldDebug(const string &, level)`, `LintelLog.cpp:29-34`. -/
def wouldDebug (s : Data) (c : Str) (level : Nat) : Res (Bool × Data) := do
  let r ← categoryToId s c
  let b ← wouldDebugId r.2 r.1 level
  pure (b, r.2)

/-- A call a program makes. Not a function of the code; stands for the uses of `LintelLog.cpp:29-34`. -/
inductive Op where
  /-- constructing a `Category`, `setKnownCategories`, or asking `wouldDebug` by name -/
  | use (c : Str)
  | set (name : Str) (level : Nat)
  | reserve (n : Nat)
deriving DecidableEq, Repr

/-- Not a function of the code; stands for the uses of `LintelLog.cpp:36-230`. -/
def step (s : Data) : Op → Res Data
  | .use c => (categoryToId s c).map Prod.snd
  | .set name level => setDebugLevel s name level
  | .reserve n => reserveCategories s n

/-- Not a function of the code; stands for the uses of `LintelLog.hpp:286-300`. -/
def runFrom (s : Data) : List Op → Res Data
  | [] => .ok s
  | o :: os => do
    let s' ← step s o
    runFrom s' os

/-- A program's calls in order, from the start. Not a function of the code; stands for the uses of `LintelLog.hpp:286-300`. -/
def run (ops : List Op) : Res Data := runFrom init ops

end Verif.Log
