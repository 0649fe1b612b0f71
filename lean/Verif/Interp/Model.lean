import Verif.Res

/-!
# Model of the interpolation search (`/repo/include/Lintel/unstable/InterpolationSearch.hpp`)

The range `[begin, end)` is a list; iterators are positions in it. Dereferencing outside it is `ub`, so is
moving before the first element. `DEBUG_*` checks are compiled out. `lt x v` is `comparer(x, v)`. The outer
`while` carries fuel; running out is `ub` (the loop would not end).
-/

namespace Verif.Interp

variable {α : Type}

/-- Template arguments, `InterpolationSearch.hpp:57`. -/
structure Params where
  isteps : Nat
  bsteps : Nat
  below : Nat
deriving Repr, DecidableEq

/-- Used in the model of `InterpolationSearch.hpp:83-113` (`interpSteps`). -/
def rd (a : List α) (i : Nat) : Res α :=
  match a[i]? with
  | some x => .ok x
  | none => .ub

/-- `*(it - 1)`. Used in the model of `InterpolationSearch.hpp:83-113` (`interpSteps`). -/
def rdBefore (a : List α) (i : Nat) : Res α := if i = 0 then .ub else rd a (i - 1)

/-- What a phase of the loop body does: return a position, or go on with `begin`, `end`, `len`. Used in the model of `InterpolationSearch.hpp:83-113` (`interpSteps`). -/
inductive Ctl where
  | ret (pos : Nat)
  | go (b e len : Nat)
deriving Repr, DecidableEq

/-- The `for` over interpolation steps, `InterpolationSearch.hpp:83-113`; the first argument is the number
of steps left. `est v first last last_pos` is the estimator. -/
def interpSteps (lt : α → α → Bool) (est : α → α → α → Nat → Res Nat) (a : List α) (v : α) :
    Nat → Nat → Nat → Nat → Res Ctl
  | 0, b, e, len => .ok (.go b e len)
  | k + 1, b, e, len =>
    if len > 0 then do
      let f ← rd a b
      let l ← rdBefore a e
      let eo ← est v f l (len - 1)
      let x ← rd a (b + eo)
      if lt x v then do
        let y ← rd a (b + eo + 1)
        if !lt y v then pure (.ret (b + eo + 1))
        else if len < eo + 1 then .ub
        else interpSteps lt est a v k (b + eo + 1) e (len - (eo + 1))
      else do
        let y ← rdBefore a (b + eo)
        if lt y v then pure (.ret (b + eo))
        else interpSteps lt est a v k b (b + eo) eo
    else .ok (.go b e len)

/-- `std::lower_bound` on `[b, b + len)` (the halving loop of libstdc++). Used in the model of `InterpolationSearch.hpp:82-155` (`mainLoop`). -/
def lowerBound (lt : α → α → Bool) (a : List α) (v : α) : Nat → Nat → Nat → Res Nat
  | 0, _, _ => .ub
  | fuel + 1, b, len =>
    if len > 0 then do
      let x ← rd a (b + len / 2)
      if lt x v then lowerBound lt a v fuel (b + len / 2 + 1) (len - len / 2 - 1)
      else lowerBound lt a v fuel b (len / 2)
    else .ok b

/-- State after the binary steps. Used in the model of `InterpolationSearch.hpp:125-142` (`binSteps`). -/
structure Bin where
  b : Nat
  e : Nat
  len : Nat
  adjB : Bool
  adjE : Bool
deriving Repr, DecidableEq

/-- The `for` over binary steps, `InterpolationSearch.hpp:125-142`. -/
def binSteps (lt : α → α → Bool) (a : List α) (v : α) : Nat → Bin → Res Bin
  | 0, s => .ok s
  | k + 1, s =>
    if s.len > 0 then do
      let x ← rd a (s.b + s.len / 2)
      if lt x v then
        binSteps lt a v k { s with b := s.b + s.len / 2 + 1, len := s.len - (s.len / 2 + 1), adjB := true }
      else
        binSteps lt a v k { s with e := s.b + s.len / 2, len := s.len / 2, adjE := true }
    else .ok s

/-- `if (adjusted_begin)`, `InterpolationSearch.hpp:144-148`: a position to return, if any. -/
def repairB (lt : α → α → Bool) (a : List α) (v : α) (s : Bin) : Res (Option Nat) :=
  if s.adjB then do
    let x ← rd a s.b
    pure (if !lt x v then some s.b else none)
  else .ok none

/-- `if (adjusted_end)`, `InterpolationSearch.hpp:149-153`. -/
def repairE (lt : α → α → Bool) (a : List α) (v : α) (s : Bin) : Res (Option Nat) :=
  if s.adjE then do
    let x ← rdBefore a s.e
    pure (if lt x v then some s.e else none)
  else .ok none

/-- Binary steps and repair, `InterpolationSearch.hpp:124-153`. -/
def binPhase (lt : α → α → Bool) (a : List α) (v : α) (bsteps b e len : Nat) : Res Ctl := do
  let s ← binSteps lt a v bsteps ⟨b, e, len, false, false⟩
  match ← repairB lt a v s with
  | some p => pure (.ret p)
  | none =>
    match ← repairE lt a v s with
    | some p => pure (.ret p)
    | none => pure (.go s.b s.e s.len)

/-- The outer `while`, `InterpolationSearch.hpp:82-155`. -/
def mainLoop (p : Params) (lt : α → α → Bool) (est : α → α → α → Nat → Res Nat) (a : List α) (v : α) :
    Nat → Nat → Nat → Nat → Res Nat
  | 0, _, _, _ => .ub
  | fuel + 1, b, e, len =>
    if len > 0 then do
      match ← interpSteps lt est a v p.isteps b e len with
      | .ret r => pure r
      | .go b e len =>
        if len = 0 then pure b
        else if len ≤ p.below then lowerBound lt a v (len + 1) b len
        else
          match ← binPhase lt a v p.bsteps b e len with
          | .ret r => pure r
          | .go b e len => mainLoop p lt est a v fuel b e len
    else .ok b

/-- `detail::interpolationLowerBound`, `InterpolationSearch.hpp:57-157`. -/
def search (p : Params) (lt : α → α → Bool) (est : α → α → α → Nat → Res Nat) (a : List α) (v : α) : Res Nat :=
  if a.length = 0 then .ok 0
  else do
    let f ← rd a 0
    if lt f v then do
      let l ← rdBefore a a.length
      if lt l v then pure a.length
      else mainLoop p lt est a v (a.length + 1) 0 a.length a.length
    else pure 0

/-- The instance everybody uses, `InterpolationSearch.hpp:161-166`. -/
def defaults : Params := ⟨2, 4, 256⟩

end Verif.Interp
