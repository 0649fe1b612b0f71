import Verif.Res

/-!
# Model of `PriorityQueue` (`/repo/include/Lintel/PriorityQueue.hpp`)

The array is a list of length `size_available`. Array reads and writes outside it are `ub`. Positions
are `Nat`; the code's `uint32_t` sums `2*pos+1` do not wrap because positions stay below `2^31`
(`push` beyond that is `ub` here: `int end_pos` turns negative, line 143).
`DEBUG_SINVARIANT` is compiled out. Loops carry fuel; running out is `ub`.
`val` arguments are values: an argument that is a reference into the queue itself is modelled
separately (`replaceTopAlias`, `pushAlias`).
-/

namespace Verif.PQ

variable {α : Type}

/-- `pq`, `size_available` (its length), `pq_size`, `PriorityQueue.hpp:230-232`. -/
structure Q (α : Type) where
  pq : List α
  size : Nat
deriving Repr, DecidableEq

/-- Used in the model of `PriorityQueue.hpp:79-88` (`pickDown`). -/
def rd (l : List α) (i : Nat) : Res α :=
  match l[i]? with
  | some v => .ok v
  | none => .ub

/-- Used in the model of `PriorityQueue.hpp:78-94` (`popLoop`). -/
def wr (l : List α) (i : Nat) (v : α) : Res (List α) :=
  if i < l.length then .ok (l.set i v) else .ub

/-- Constructors, `PriorityQueue.hpp:54-62`; `d` is `T()`. -/
def new (d : α) (initial : Nat) : Q α := ⟨List.replicate initial d, 0⟩

/-- Which child of `cur` moves up in `pop`, `PriorityQueue.hpp:79-88`: `left`, unless the right one
exists and is not less important. -/
def pickDown (li : α → α → Bool) (n : Nat) (pq : List α) (left : Nat) : Res Nat :=
  if left + 1 < n then do
    let r ← rd pq (left + 1)
    let l ← rd pq left
    pure (if !li r l then left + 1 else left)
  else pure left

/-- The loop of `pop`, `PriorityQueue.hpp:78-94`. -/
def popLoop (li : α → α → Bool) (n : Nat) : Nat → List α → Nat → Res (List α × Nat)
  | 0, _, _ => .ub
  | fuel + 1, pq, cur =>
    if 2 * cur + 1 ≥ n then pure (pq, cur)
    else do
      let c ← pickDown li n pq (2 * cur + 1)
      let last ← rd pq n
      let x ← rd pq c
      if !li last x then pure (pq, cur)
      else do
        let pq ← wr pq cur x
        popLoop li n fuel pq c

/-- `pop`, `PriorityQueue.hpp:73-97`. On an empty queue `--pq_size` wraps and the loop runs off the
array. -/
def pop (li : α → α → Bool) (q : Q α) : Res (Q α) :=
  if q.size = 0 then .ub
  else
    let n := q.size - 1
    if n > 0 then do
      let r ← popLoop li n (n + 1) q.pq 0
      let last ← rd r.1 n
      let pq ← wr r.1 r.2 last
      pure ⟨pq, n⟩
    else pure ⟨q.pq, n⟩

/-- Which child moves up in the bottom-up pop, `PriorityQueue.hpp:113-117`. -/
def pickBU (li : α → α → Bool) (n : Nat) (pq : List α) (down : Nat) : Res Nat :=
  if down + 1 = n then pure down
  else do
    let r ← rd pq (down + 1)
    let l ← rd pq down
    pure (if li r l then down else down + 1)

/-- First loop of `pop_bottom_up_heuristic`, `PriorityQueue.hpp:112-121`; `down = 2*hole+1`. -/
def buDown (li : α → α → Bool) (n : Nat) : Nat → List α → Nat → Res (List α × Nat)
  | 0, _, _ => .ub
  | fuel + 1, pq, hole =>
    if 2 * hole + 1 < n then do
      let c ← pickBU li n pq (2 * hole + 1)
      let x ← rd pq c
      let pq ← wr pq hole x
      buDown li n fuel pq c
    else pure (pq, hole)

/-- Second loop, `PriorityQueue.hpp:127-132`; `back` is a reference to slot `b`. For `hole = 0` the
index `(hole - 1) / 2` wraps to `2^31 - 1`. -/
def buUp (li : α → α → Bool) (b : Nat) : Nat → List α → Nat → Res (List α × Nat)
  | 0, _, _ => .ub
  | fuel + 1, pq, hole => do
    let up := if hole = 0 then 2147483647 else (hole - 1) / 2
    let back ← rd pq b
    let x ← rd pq up
    if !li back x then do
      let pq ← wr pq hole x
      buUp li b fuel pq up
    else pure (pq, hole)

/-- `pop_bottom_up_heuristic`, `PriorityQueue.hpp:107-137`. -/
def popBU (li : α → α → Bool) (q : Q α) : Res (Q α) :=
  if q.size = 0 then .ub
  else do
    let r ← buDown li q.size (q.size + 1) q.pq 0
    let r' ← (if r.2 > 0 then do
      let back ← rd r.1 (q.size - 1)
      Res.require (li back back)
      buUp li (q.size - 1) (q.size + 1) r.1 r.2
    else pure r)
    let back ← rd r'.1 (q.size - 1)
    let pq ← wr r'.1 r'.2 back
    pure ⟨pq, q.size - 1⟩

/-- The loop of `push`, `PriorityQueue.hpp:144-152`. -/
def pushLoop (li : α → α → Bool) (v : α) : Nat → List α → Nat → Res (List α × Nat)
  | 0, _, _ => .ub
  | fuel + 1, pq, pos =>
    if pos > 0 then do
      let x ← rd pq ((pos - 1) / 2)
      if !li v x then do
        let pq ← wr pq pos x
        pushLoop li v fuel pq ((pos - 1) / 2)
      else pure (pq, pos)
    else pure (pq, pos)

/-- `double_size`, `PriorityQueue.hpp:221-229`: the fresh half is default-constructed. A doubled size
of `2^32` or more wraps and the copy writes outside the new array. -/
def doubleSize (d : α) (pq : List α) : Res (List α) :=
  if 2 * pq.length ≥ 4294967296 then .ub else .ok (pq ++ List.replicate pq.length d)

/-- The growth test of `push`, `PriorityQueue.hpp:140-142`. -/
def room (d : α) (q : Q α) : Res (List α) :=
  if q.size = q.pq.length then doubleSize d q.pq else pure q.pq

/-- `push`, `PriorityQueue.hpp:139-155`. -/
def push (li : α → α → Bool) (d : α) (q : Q α) (v : α) : Res (Q α) := do
  let pq ← room d q
  if q.size ≥ 2147483648 then .ub
  else do
    let r ← pushLoop li v (q.size + 1) pq q.size
    let pq ← wr r.1 r.2 v
    pure ⟨pq, q.size + 1⟩

/-- Which child moves up in `replaceTop`, `PriorityQueue.hpp:165-170`. -/
def pickRT (li : α → α → Bool) (n : Nat) (pq : List α) (left : Nat) : Res Nat :=
  if left + 1 < n then do
    let l ← rd pq left
    let r ← rd pq (left + 1)
    pure (if li l r then left + 1 else left)
  else pure left

/-- The loop of `replaceTop`, `PriorityQueue.hpp:161-177`. -/
def rtLoop (li : α → α → Bool) (n : Nat) (v : α) : Nat → List α → Nat → Res (List α × Nat)
  | 0, _, _ => .ub
  | fuel + 1, pq, cur =>
    if 2 * cur + 1 ≥ n then pure (pq, cur)
    else do
      let c ← pickRT li n pq (2 * cur + 1)
      let x ← rd pq c
      if li v x then do
        let pq ← wr pq cur x
        rtLoop li n v fuel pq c
      else pure (pq, cur)

/-- `replaceTop`, `PriorityQueue.hpp:159-181`. -/
def replaceTop (li : α → α → Bool) (q : Q α) (v : α) : Res (Q α) := do
  let r ← rtLoop li q.size v (q.size + 1) q.pq 0
  let pq ← wr r.1 r.2 v
  pure { q with pq := pq }

/-- The loop of `replaceTop` when `val` is a reference to slot `0` of the queue itself, as in
`pq.replaceTop(pq.top())`: the value is read anew in every comparison. Used in the model of `PriorityQueue.hpp:159-181` (`replaceTopAlias`). -/
def rtLoopAlias (li : α → α → Bool) (n : Nat) : Nat → List α → Nat → Res (List α × Nat)
  | 0, _, _ => .ub
  | fuel + 1, pq, cur =>
    if 2 * cur + 1 ≥ n then pure (pq, cur)
    else do
      let c ← pickRT li n pq (2 * cur + 1)
      let x ← rd pq c
      let v ← rd pq 0
      if li v x then do
        let pq ← wr pq cur x
        rtLoopAlias li n fuel pq c
      else pure (pq, cur)

/-- `q.replaceTop(q.top())`, `PriorityQueue.hpp:159-181`. -/
def replaceTopAlias (li : α → α → Bool) (q : Q α) : Res (Q α) := do
  let r ← rtLoopAlias li q.size (q.size + 1) q.pq 0
  let v ← rd r.1 0
  let pq ← wr r.1 r.2 v
  pure { q with pq := pq }

/-- `q.push(q.top())`, `PriorityQueue.hpp:139-155`: when the array is full, `double_size` frees the
object that `val` refers to before it is read. Otherwise slot `0` is not written before the last
read of `val`, except by its own value. -/
def pushAlias (li : α → α → Bool) (d : α) (q : Q α) : Res (Q α) :=
  if q.size = q.pq.length then .ub
  else do
    let v ← rd q.pq 0
    push li d q v

/-- `top`, `PriorityQueue.hpp:70-71`. -/
def top (q : Q α) : Res α := rd q.pq 0

/-- `clear`, `PriorityQueue.hpp:191-193`. -/
def clear (q : Q α) : Q α := { q with size := 0 }

/-- `reserve`, `PriorityQueue.hpp:195-203`. -/
def reserve (d : α) (q : Q α) (amt : Nat) : Res (Q α) := do
  Res.require (decide (q.size = 0))
  if amt > q.size then pure ⟨List.replicate amt d, q.size⟩ else pure q

/-- `selfVerify`, `PriorityQueue.hpp:205-214`: positions `i` on, with `fuel` left. -/
def selfVerifyLoop (li : α → α → Bool) (q : Q α) : Nat → Nat → Res Unit
  | 0, _ => .ok ()
  | fuel + 1, i =>
    if i < q.size then
      if 2 * i + 1 ≥ q.size then .ok ()
      else do
        let x ← rd q.pq i
        let l ← rd q.pq (2 * i + 1)
        Res.require (!li x l)
        if 2 * i + 2 ≥ q.size then .ok ()
        else do
          let r ← rd q.pq (2 * i + 2)
          Res.require (!li x r)
          selfVerifyLoop li q fuel (i + 1)
    else .ok ()

/-- Made of the parts of `PriorityQueue.hpp:205-232`. -/
def selfVerify (li : α → α → Bool) (q : Q α) : Res Unit := selfVerifyLoop li q (q.size + 1) 0

/-! ## Histories -/

/-- Calls. `pop`, `popBU` and `replaceTop` also show the `top()` read just before. Not a function of the code; stands for the uses of `PriorityQueue.hpp:70-203`. -/
inductive Op (α : Type) where
  | push (v : α)
  | pop
  | popBU
  | replaceTop (v : α)
  | top
  | size
  | clear
  | reserve (amt : Nat)

/-- Not a function of the code; stands for the uses of `PriorityQueue.hpp:70-232`. -/
inductive Out (α : Type) where
  | unit
  | val (v : α)
  | nat (n : Nat)
deriving Repr, DecidableEq

/-- Not a function of the code; stands for the uses of `PriorityQueue.hpp:70-232`. -/
def step (li : α → α → Bool) (d : α) (q : Q α) : Op α → Res (Q α × Out α)
  | .push v => do
    let q ← push li d q v
    pure (q, .unit)
  | .pop => do
    let v ← top q
    let q ← pop li q
    pure (q, .val v)
  | .popBU => do
    let v ← top q
    let q ← popBU li q
    pure (q, .val v)
  | .replaceTop v => do
    let x ← top q
    let q ← replaceTop li q v
    pure (q, .val x)
  | .top => do
    let v ← top q
    pure (q, .val v)
  | .size => pure (q, .nat q.size)
  | .clear => pure (clear q, .unit)
  | .reserve amt => do
    let q ← reserve d q amt
    pure (q, .unit)

/-- Not a function of the code; stands for the uses of `PriorityQueue.hpp:230-232`. -/
def run (li : α → α → Bool) (d : α) : Q α → List (Op α) → Res (List (Out α))
  | _, [] => .ok []
  | q, op :: ops => do
    let r ← step li d q op
    let outs ← run li d r.1 ops
    pure (r.2 :: outs)

end Verif.PQ
