import Verif.Res

/-!
# Model of `lintel::BoyerMooreHorspool` (`/repo/src/BoyerMooreHorspool.cpp`)

`size_t` is `Nat` (a haystack has fewer than `2^63` bytes); `npos` is `none`.
-/

namespace Verif.BMH

/-- Used in the model of `BoyerMooreHorspool.hpp:74-77` (`Searcher`). -/
abbrev Byte := Fin 256

/-- The members, `BoyerMooreHorspool.hpp:74-77`. -/
structure Searcher where
  needle : List Byte
  shift : List Nat
  last : Nat

/-- `p[i]`. Used in the model of `BoyerMooreHorspool.cpp:57-59` (`fillLoop`). -/
def rd {α} (p : List α) (i : Nat) : Res α :=
  match p[i]? with
  | some v => .ok v
  | none => .ub

/-- The second loop of `init`, `BoyerMooreHorspool.cpp:57-59`, `n` iterations from `i`. -/
def fillLoop (needle : List Byte) (last : Nat) (i : Nat) (shift : List Nat) : Nat → Res (List Nat)
  | 0 => .ok shift
  | n + 1 => do
    let c ← rd needle i
    fillLoop needle last (i + 1) (shift.set c.val (last - i)) n

/-- Constructor and `init`, `BoyerMooreHorspool.cpp:31-60`. -/
def init (needle : List Byte) : Res Searcher := do
  Res.require (decide (needle.length > 0))
  let last := needle.length - 1
  let shift ← fillLoop needle last 0 (List.replicate 256 needle.length) last
  pure { needle := needle, shift := shift, last := last }

/-- The inner `for`, `BoyerMooreHorspool.cpp:66-70`, from index `i` down; `off` is
`haystack - hay_v`. `true`: reached `i == 0` with a match. -/
def cmpLoop (needle hay : List Byte) (off : Nat) : Nat → Res Bool
  | 0 => do
    let h ← rd hay off
    let c ← rd needle 0
    pure (decide (h = c))
  | i + 1 => do
    let h ← rd hay (off + (i + 1))
    let c ← rd needle (i + 1)
    if h = c then cmpLoop needle hay off i else pure false

/-- The `while`, `BoyerMooreHorspool.cpp:65-76`, at most `fuel` iterations (`ub` when they do
not suffice). -/
def findLoop (s : Searcher) (hay : List Byte) : Nat → Nat → Nat → Res (Option Nat)
  | 0, _, _ => .ub
  | fuel + 1, off, hayLen =>
    if hayLen ≥ s.needle.length then do
      let hit ← cmpLoop s.needle hay off s.last
      if hit then pure (some off)
      else
        let c ← rd hay (off + s.last)
        let skip ← rd s.shift c.val
        if hayLen < skip then pure none
        else findLoop s hay fuel (off + skip) (hayLen - skip)
    else pure none

/-- `find`, `BoyerMooreHorspool.cpp:62-78`. -/
def find (s : Searcher) (hay : List Byte) : Res (Option Nat) :=
  findLoop s hay (hay.length + 1) 0 hay.length

/-- `matches`, `BoyerMooreHorspool.hpp:53-55`. -/
def matches' (s : Searcher) (hay : List Byte) : Res Bool := (find s hay).map (·.isSome)

end Verif.BMH
