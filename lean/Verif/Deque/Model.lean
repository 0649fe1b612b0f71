import Verif.Res

/-!
# Model of `Deque<T>` (`/repo/include/Lintel/Deque.hpp`)

Storage is a list of cells; `none` is a raw (unconstructed or destroyed) cell, `some v` a
constructed object.  Reading or destroying a raw cell, constructing over a live object and
any index outside the allocation are `Res.ub`.

Simplification: `size_t` is `Nat` in the container operations (an allocation of more than
`2^63` elements is impossible); the iterator arithmetic, whose behaviour depends on
wrap-around, is modelled modulo `2^64`.
-/

namespace Verif.Deque

/-- Used in the model of `Deque.hpp:300-303` (`Deque`). -/
abbrev Mem (α : Type) := List (Option α)

/-- `deque[i]` read as an object. Used in the model of `Deque.hpp:54-57` (`front`). -/
def readAt {α} (m : Mem α) (i : Nat) : Res α :=
  match m[i]? with
  | some (some v) => .ok v
  | _ => .ub

/-- `allocator.construct(deque + i, v)`. Used in the model of `Deque.hpp:274-277` (`moveLoop`). -/
def constructAt {α} (m : Mem α) (i : Nat) (v : α) : Res (Mem α) :=
  match m[i]? with
  | some none => .ok (m.set i (some v))
  | _ => .ub

/-- `allocator.destroy(deque + i)`. Used in the model of `Deque.hpp:66-70` (`popFront`). -/
def destroyAt {α} (m : Mem α) (i : Nat) : Res (Mem α) :=
  match m[i]? with
  | some (some _) => .ok (m.set i none)
  | _ => .ub

/-- `allocator.allocate(n)`: `n` raw cells. Used in the model of `Deque.hpp:43-47` (`mk'`). -/
def allocate (α : Type) (n : Nat) : Mem α := List.replicate n none

/-- The data members, `Deque.hpp:300-303`. -/
structure Deque (α : Type) where
  mem : Mem α
  qFront : Nat
  qBack : Nat
  qSize : Nat
deriving Repr, DecidableEq

/-- A `const T &` argument: a value living outside the deque, or a reference into the
deque's own storage (e.g. `d.push_back(d.front())`). Used in the model of `Deque.hpp:268-298` (`pushExpand`). -/
inductive Arg (α : Type) where
  | ext (v : α)
  | self (cell : Nat)
deriving Repr, DecidableEq

/-- Evaluate a `const T &` argument against the current storage. Used in the model of `Deque.hpp:268-298` (`pushExpand`). -/
def Arg.get {α} (m : Mem α) : Arg α → Res α
  | .ext v => .ok v
  | .self i => readAt m i

/-- Constructor, `Deque.hpp:43-47`. -/
def mk' (α : Type) (defaultSize : Nat) : Res (Deque α) := do
  Res.require (decide (defaultSize > 1))
  pure { mem := allocate α defaultSize, qFront := 0, qBack := 0, qSize := defaultSize }

variable {α : Type}

/-- `front`, `Deque.hpp:54-57` (release build: no emptiness check). -/
def front (d : Deque α) : Res α := readAt d.mem d.qFront

/-- `back`, `Deque.hpp:58-61`. -/
def back (d : Deque α) : Res α := readAt d.mem ((d.qBack + d.qSize - 1) % d.qSize)

/-- `at`, `Deque.hpp:62-65`. -/
def at' (d : Deque α) (pos : Nat) : Res α := readAt d.mem ((d.qFront + pos) % d.qSize)

/-- `pop_front`, `Deque.hpp:66-70`. -/
def popFront (d : Deque α) : Res (Deque α) := do
  let m ← destroyAt d.mem d.qFront
  pure { d with mem := m, qFront := (d.qFront + 1) % d.qSize }

/-- The copy loops of `push_expand` (`Deque.hpp:274-277`, `279-283`, `284-288`):
`n` iterations starting at old cell `j`, new cell `i`; each constructs the new object from
the old one and then destroys the old one. Returns old storage, new storage, next `i`. -/
def moveLoop (old new : Mem α) (j i : Nat) : Nat → Res (Mem α × Mem α × Nat)
  | 0 => .ok (old, new, i)
  | n + 1 => do
    let v ← readAt old j
    let new ← constructAt new i v
    let old ← destroyAt old j
    moveLoop old new (j + 1) (i + 1) n

/-- The two-way copy of `push_expand`, `Deque.hpp:272-289`. -/
def expandCopy (d : Deque α) (new : Mem α) : Res (Mem α × Mem α × Nat) :=
  if d.qFront = 0 then
    moveLoop d.mem new 0 0 d.qBack
  else do
    let r ← moveLoop d.mem new d.qFront 0 (d.qSize - d.qFront)
    moveLoop r.1 r.2.1 0 r.2.2 d.qBack

/-- `push_expand`, `Deque.hpp:268-298`. The argument is evaluated where the code does it,
after the old elements have been destroyed (line 293). -/
def pushExpand (d : Deque α) (val : Arg α) : Res (Deque α) := do
  let (old, new, i) ← expandCopy d (allocate α (d.qSize * 2))
  Res.require (decide (i = d.qSize - 1))
  let v ← val.get old
  let new ← constructAt new i v
  pure { mem := new, qFront := 0, qBack := i + 1, qSize := d.qSize * 2 }

/-- `push_back`, `Deque.hpp:71-79`. -/
def pushBack (d : Deque α) (val : Arg α) : Res (Deque α) := do
  let backNext := (d.qBack + 1) % d.qSize
  if backNext ≠ d.qFront then
    let v ← val.get d.mem
    let m ← constructAt d.mem d.qBack v
    pure { d with mem := m, qBack := backNext }
  else
    pushExpand d val

/-- `push_back(const std::vector<T>&)`, `Deque.hpp:81-87`. -/
def pushBackAll (d : Deque α) : List α → Res (Deque α)
  | [] => .ok d
  | v :: vs => do
    let d ← pushBack d (.ext v)
    pushBackAll d vs

/-- `empty`, `Deque.hpp:89`. -/
def empty (d : Deque α) : Bool := d.qFront == d.qBack

/-- `size`, `Deque.hpp:90`. -/
def size (d : Deque α) : Nat := (d.qBack + d.qSize - d.qFront) % d.qSize

/-- `capacity`, `Deque.hpp:104`. -/
def capacity (d : Deque α) : Nat := d.qSize - 1

/-- `reserve`, `Deque.hpp:93-102`. -/
def reserve (d : Deque α) (newSize : Nat) : Res (Deque α) := do
  Res.require (empty d)
  Res.require (decide (newSize > 0 ∧ newSize < 2 ^ 64 - 1))
  pure { mem := allocate α (newSize + 1), qFront := 0, qBack := 0, qSize := newSize + 1 }

/-- The destroy loops of `clear`, `Deque.hpp:249-251` and `253-255`: `n` iterations from
cell `i`. -/
def destroyLoop (m : Mem α) (i : Nat) : Nat → Res (Mem α)
  | 0 => .ok m
  | n + 1 => do
    let m ← destroyAt m i
    destroyLoop m (i + 1) n

/-- The destroy part of `clear`, `Deque.hpp:247-257`. -/
def clearCells (d : Deque α) : Res (Mem α) :=
  if !empty d then do
    let mx := if d.qBack > d.qFront then d.qBack else d.qSize
    let m ← destroyLoop d.mem d.qFront (mx - d.qFront)
    if d.qBack < d.qFront then destroyLoop m 0 d.qBack else pure m
  else pure d.mem

/-- `clear`, `Deque.hpp:246-260`. -/
def clear (d : Deque α) : Res (Deque α) := do
  let m ← clearCells d
  pure { d with mem := m, qFront := 0, qBack := 0 }

/-! ## Iterators (`Deque.hpp:107-244`) -/

/-- `2^64`, the modulus of `size_t`. Used in the model of `Deque.hpp:222-225` (`itInc`). -/
def W : Nat := 2 ^ 64

/-- Conversion of a `ptrdiff_t` to `size_t`. Used in the model of `Deque.hpp:163-166` (`itAdd`). -/
def toSize (x : Int) : Nat := (x % (W : Int)).toNat

/-- `begin()`/`end()`, `Deque.hpp:238-244`; an iterator is its `cur_pos`. -/
def begin' (d : Deque α) : Nat := d.qFront
/-- Made of the parts of `Deque.hpp:300-303`. -/
def end' (d : Deque α) : Nat := d.qBack

/-- `operator*`, `Deque.hpp:135-138`. -/
def itDeref (d : Deque α) (it : Nat) : Res α := readAt d.mem it

/-- `operator++`/`increment`, `Deque.hpp:222-225`. -/
def itInc (d : Deque α) (it : Nat) : Nat := (it + 1) % W % d.qSize

/-- `operator--`/`decrement`, `Deque.hpp:226-229`. -/
def itDec (d : Deque α) (it : Nat) : Nat := (it + d.qSize + (W - 1)) % W % d.qSize

/-- `operator+`/`+=`, `Deque.hpp:163-166`, `194-198`: `static_cast<size_t>(cur_pos + diff) % q_size`. -/
def itAdd (d : Deque α) (it : Nat) (diff : Int) : Nat := toSize ((it : Int) + diff) % d.qSize

/-- `operator-`/`-=`, `Deque.hpp:168-172`, `200-205`. -/
def itSub (d : Deque α) (it : Nat) (diff : Int) : Nat :=
  toSize ((it : Int) + d.qSize - diff) % d.qSize

/-- `logicalOffset`, `Deque.hpp:231-233` (`size_t` arithmetic). -/
def logicalOffset (d : Deque α) (it : Nat) : Nat :=
  toSize ((it : Int) - d.qFront + d.qSize) % d.qSize

/-- `operator-(const iterator&)`, `Deque.hpp:207-210`. -/
def itDiff (d : Deque α) (a b : Nat) : Int := (logicalOffset d a : Int) - logicalOffset d b

/-- `operator<`, `Deque.hpp:174-177`. -/
def itLt (d : Deque α) (a b : Nat) : Bool := decide (logicalOffset d a < logicalOffset d b)

/-- The client loop `for (it = begin(); it != end(); ++it) out.push_back(*it)` with at most
`fuel` iterations; `ub` when the fuel runs out (the loop has not ended). Made of the parts of `Deque.hpp:135-303`. -/
def walk (d : Deque α) (it : Nat) : Nat → Res (List α)
  | 0 => if it = end' d then .ok [] else .ub
  | n + 1 => do
    if it = end' d then pure []
    else
      let v ← itDeref d it
      let vs ← walk d (itInc d it) n
      pure (v :: vs)

/-! ## Operation histories -/

/-- Not a function of the code; stands for the uses of `Deque.hpp:54-260`. -/
inductive Op (α : Type) where
  | push (v : α)
  | pushSelf (i : Nat)          -- push_back(at(i))
  | pushAll (vs : List α)
  | pop
  | clear
  | reserve (n : Nat)
  | front | back | at (i : Nat) | size | empty
deriving Repr, DecidableEq

/-- Not a function of the code; stands for the uses of `Deque.hpp:54-303`. -/
inductive Out (α : Type) where
  | unit
  | val (v : α)
  | nat (n : Nat)
  | bool (b : Bool)
deriving Repr, DecidableEq

/-- One API call. Not a function of the code; stands for the uses of `Deque.hpp:54-303`. -/
def step (d : Deque α) : Op α → Res (Deque α × Out α)
  | .push v => do let d ← pushBack d (.ext v); pure (d, .unit)
  | .pushSelf i => do let d ← pushBack d (.self ((d.qFront + i) % d.qSize)); pure (d, .unit)
  | .pushAll vs => do let d ← pushBackAll d vs; pure (d, .unit)
  | .pop => do let d ← popFront d; pure (d, .unit)
  | .clear => do let d ← clear d; pure (d, .unit)
  | .reserve n => do let d ← reserve d n; pure (d, .unit)
  | .front => do let v ← front d; pure (d, .val v)
  | .back => do let v ← back d; pure (d, .val v)
  | .at i => do let v ← at' d i; pure (d, .val v)
  | .size => .ok (d, .nat (size d))
  | .empty => .ok (d, .bool (empty d))

/-- A whole history. Not a function of the code; stands for the uses of `Deque.hpp:300-303`. -/
def run (d : Deque α) : List (Op α) → Res (Deque α × List (Out α))
  | [] => .ok (d, [])
  | op :: ops => do
    let (d, o) ← step d op
    let (d, os) ← run d ops
    pure (d, o :: os)

end Verif.Deque
