import Verif.Res

/-!
# Model of `lintel::Atomic<T>` (`/repo/include/Lintel/AtomicCounter.hpp`)

The variant the header selects (`LINTEL_USE_GCC_ASM_ATOMICS`, line 22): each inline-assembly instruction on the
counter is one indivisible step of a machine in which any number of threads take steps in any order. `T` is an integer
of `w` bits; `ovf` says whether arithmetic on `T` is signed and not narrower than `int`, so that overflow is undefined.
The memory model is sequentially consistent: ordering against other variables is not modelled.
-/

namespace Verif.Atomic

/-- The public operations, `AtomicCounter.hpp:227-297`. `preInc` is also `incThenFetch()`, `preDec` `decThenFetch()`,
`addA` `addThenFetch()`, `load` the conversion to `T`, `store` the assignment. -/
inductive Op (w : Nat)
  | load | isZero
  | store (v : BitVec w) | exchange (v : BitVec w)
  | cas (expected desired : BitVec w)
  | fetchAdd (v : BitVec w) | fetchSub (v : BitVec w) | fetchOr (v : BitVec w) | fetchAnd (v : BitVec w) | fetchXor (v : BitVec w)
  | addA (v : BitVec w) | subA (v : BitVec w) | orA (v : BitVec w) | andA (v : BitVec w) | xorA (v : BitVec w)
  | postInc | postDec | preInc | preDec
deriving DecidableEq

/-- What an operation gives back; `swapped b e` is the result of `compare_exchange_strong` and the value it leaves in
`*expected`. Used in the model of `AtomicCounter.hpp:241-297` (`finish`). -/
inductive Ret (w : Nat)
  | val (x : BitVec w)
  | flag (b : Bool)
  | swapped (b : Bool) (e : BitVec w)
deriving DecidableEq

/-- The instructions used, `AtomicCounter.hpp:115-179`: `mov`, `xchg`, `lock cmpxchg`, `lock xadd`, and the loop of a
`mov` and `lock cmpxchg`s that computes `f`. -/
inductive Micro (w : Nat)
  | read
  | xchg (v : BitVec w)
  | cmpxchg (expected desired : BitVec w)
  | xadd (v : BitVec w)
  | loop (f : BitVec w → BitVec w)

/-- `-v`: undefined for the smallest signed value. Used in the model of `AtomicCounter.hpp:115-179` (`decode`). -/
def negT (ovf : Bool) (v : BitVec w) : Res (BitVec w) :=
  if ovf ∧ v.toInt = -(2 ^ (w - 1) : Nat) then .ub else .ok (-v)

/-- `a + b`: undefined on signed overflow. Used in the model of `AtomicCounter.hpp:241-297` (`finish`). -/
def addT (ovf : Bool) (a b : BitVec w) : Res (BitVec w) :=
  if ovf ∧ (a + b).toInt ≠ a.toInt + b.toInt then .ub else .ok (a + b)

/-- Used in the model of `AtomicCounter.hpp:241-297` (`finish`). -/
def subT (ovf : Bool) (a b : BitVec w) : Res (BitVec w) :=
  if ovf ∧ (a - b).toInt ≠ a.toInt - b.toInt then .ub else .ok (a - b)

/-- Which instructions an operation runs, `AtomicCounter.hpp:115-179, 252-297`; `fetch_sub` adds the negation
(`AtomicCounter.hpp:149-151`). -/
def decode (ovf : Bool) : Op w → Res (Micro w)
  | .load | .isZero => .ok .read
  | .store v | .exchange v => .ok (.xchg v)
  | .cas e d => .ok (.cmpxchg e d)
  | .fetchAdd v | .addA v => .ok (.xadd v)
  | .fetchSub v | .subA v => do
    let n ← negT ovf v
    pure (.xadd n)
  | .fetchOr v | .orA v => .ok (.loop fun e => e ||| v)
  | .fetchAnd v | .andA v => .ok (.loop fun e => e &&& v)
  | .fetchXor v | .xorA v => .ok (.loop fun e => e ^^^ v)
  | .postInc | .preInc => .ok (.xadd 1)
  | .postDec | .preDec => do
    let n ← negT ovf 1
    pure (.xadd n)

/-- What is computed from the value the instruction brought back, `AtomicCounter.hpp:241-297`. -/
def finish (ovf : Bool) (old : BitVec w) : Op w → Res (Ret w)
  | .load => .ok (.val old)
  | .isZero => .ok (.flag (old == 0))
  | .store v => .ok (.val v)
  | .exchange _ => .ok (.val old)
  | .cas e _ => .ok (.swapped (old == e) old)
  | .fetchAdd _ | .fetchSub _ | .fetchOr _ | .fetchAnd _ | .fetchXor _ | .postInc | .postDec => .ok (.val old)
  | .addA v => do let x ← addT ovf old v; pure (.val x)
  | .subA v => do let x ← subT ovf old v; pure (.val x)
  | .orA v => .ok (.val (old ||| v))
  | .andA v => .ok (.val (old &&& v))
  | .xorA v => .ok (.val (old ^^^ v))
  | .preInc => do let x ← addT ovf old 1; pure (.val x)
  | .preDec => do let x ← subT ovf old 1; pure (.val x)

/-- A thread: the operations still to run, the register `expected` of a loop under way, and what the finished
operations returned. Made of the parts of `AtomicCounter.hpp:227-297`. -/
structure Thread (w : Nat) where
  todo : List (Op w)
  reg : Option (BitVec w)
  done : List (Op w × Ret w)

/-- Not a function of the code; stands for the uses of `AtomicCounter.hpp:115-297`. -/
structure State (w : Nat) where
  counter : BitVec w
  thr : Nat → Thread w

/-- Used in the model of `AtomicCounter.hpp:227-297` (`complete`). -/
def State.set (s : State w) (c : BitVec w) (t : Nat) (x : Thread w) : State w :=
  ⟨c, fun u => if u = t then x else s.thr u⟩

/-- An operation ends: `old` is what its last instruction brought back. Made of the parts of `AtomicCounter.hpp:227-297`. -/
def complete (ovf : Bool) (s : State w) (t : Nat) (op : Op w) (rest : List (Op w)) (old new : BitVec w) : Res (State w) := do
  let r ← finish ovf old op
  pure (s.set new t ⟨rest, none, (s.thr t).done ++ [(op, r)]⟩)

/-- One instruction of the operation `op` of thread `t`. Made of the parts of `AtomicCounter.hpp:115-297`. -/
def exec (ovf : Bool) (s : State w) (t : Nat) (op : Op w) (rest : List (Op w)) : Micro w → Res (State w)
  | .read => complete ovf s t op rest s.counter s.counter
  | .xchg v => complete ovf s t op rest s.counter v
  | .cmpxchg e d => complete ovf s t op rest s.counter (if s.counter = e then d else s.counter)
  | .xadd v => complete ovf s t op rest s.counter (s.counter + v)
  | .loop f =>
    match (s.thr t).reg with
    | none => .ok (s.set s.counter t { s.thr t with reg := some s.counter })
    | some e =>
      if s.counter = e then complete ovf s t op rest e (f e)
      else .ok (s.set s.counter t { s.thr t with reg := some s.counter })

/-- Thread `t` runs its next instruction (nothing when it has finished). Not a function of the code; stands for the uses of `AtomicCounter.hpp:115-179`. -/
def step (ovf : Bool) (s : State w) (t : Nat) : Res (State w) :=
  match (s.thr t).todo with
  | [] => .ok s
  | op :: rest => do
    let m ← decode ovf op
    exec ovf s t op rest m

/-- A schedule is the list of threads that take steps. Not a function of the code; stands for the uses of `AtomicCounter.hpp:115-297`. -/
def run (ovf : Bool) : State w → List Nat → Res (State w)
  | s, [] => .ok s
  | s, t :: ts => do
    let s ← step ovf s t
    run ovf s ts

/-- `Atomic(c)` shared by threads with the given programs. Made of the parts of `AtomicCounter.hpp:227-297`. -/
def initial (c : BitVec w) (progs : Nat → List (Op w)) : State w := ⟨c, fun t => ⟨progs t, none, []⟩⟩

end Verif.Atomic
