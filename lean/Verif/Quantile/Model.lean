import Verif.PQ.Model
import Verif.Flt.Round
import Mathlib.Data.List.Sort

/-!
# Model of `StatsQuantile`

`/repo/include/Lintel/StatsQuantile.hpp`, `/repo/src/StatsQuantile.cpp`.

Values are of any linearly ordered type `V` (doubles other than NaN; `-0` and `0` are not told apart). Array cells that were
allocated and not yet written are `none`; sorting or returning such a cell is undefined behaviour, and so is any access outside an array or through a null
pointer. The zeros that `init_buffers` writes to touch the memory are left out: those cells count as not written.

The parallel arrays `all_buffers`, `buffer_weight`, `buffer_level` and `buffer_sorted`, all of length `nbuffers`, are one list of records.
`cur_buffer` is `-1` in an empty lazy sketch, so `cur_buffer + 1` is kept. `collapse_pos` has `buffer_size` entries (line 158) but is indexed by
buffer number; its contents never outlive a call, so it is local here.

`std::sort` is an insertion sort, `std::lower_bound` and `std::upper_bound` give the first position whose value is not less than, or greater than, the
target. Weights are mathematical integers: `collapse` and `getQuantile` abort at `10^14` values, far below the range of `int64_t`.

The fields `lo` and `hi` are not in the code: they add up how far the collapses done so far may have moved ranks down and up.
-/

namespace Verif.Quantile

open Verif

/-- The entries of the arrays for one buffer, `StatsQuantile.hpp:161-170`. -/
structure Slot (V : Type) where
  buf : Option (List (Option V))
  weight : Int
  level : Int
  sorted : Bool
deriving DecidableEq, Repr

/-- `StatsQuantile.hpp:146-178`. -/
structure Sk (V : Type) where
  /-- `buffer_size` -/
  size : Nat
  slots : List (Slot V)
  /-- `cur_buffer + 1` -/
  cur1 : Nat
  /-- `cur_buffer_pos` -/
  pos : Nat
  evenLow : Bool
  lazy : Bool
  nbound : Nat
  /-- `Stats::number` -/
  count : Nat
  /-- not in the code -/
  lo : Nat
  hi : Nat
deriving DecidableEq, Repr

/-- The constants `0.0` and `Double::Inf`. Part of the model of `StatsQuantile.cpp:53-661`. -/
structure Consts (V : Type) where
  zero : V
  inf : V

variable {V : Type} [LinearOrder V] (c : Consts V)

/-! ## Construction -/

/-- One round of the loop of `init_buffers`, `StatsQuantile.cpp:163-178`. -/
def initSlot (k : Nat) (lazy : Bool) (s : Slot V) : Slot V :=
  { buf := if s.buf.isNone && !lazy then some (List.replicate k none) else s.buf, weight := -1, level := -1, sorted := false }

/-- `init_buffers`, `StatsQuantile.cpp:162-189`, and `Stats::reset` for the count. -/
def initBuffers (s : Sk V) : Sk V :=
  { s with
    slots := match s.slots.map (initSlot s.size s.lazy) with
      | [] => []
      | x :: xs => { x with weight := 1, level := 0 } :: xs
    cur1 := if s.lazy then 0 else 1
    pos := if s.lazy then s.size + 1 else 0
    evenLow := true
    count := 0
    lo := 0
    hi := 0 }

/-- `init`, `StatsQuantile.cpp:139-160`. -/
def new (nbuffers size nbound : Nat) (lazy : Bool) : Res (Sk V) := do
  Res.require (decide (nbuffers > 1))
  Res.require (decide (size ≥ 10))
  pure (initBuffers
    { size := size, slots := List.replicate nbuffers ⟨none, -1, -1, false⟩, cur1 := 0, pos := 0, evenLow := true, lazy := lazy,
      nbound := nbound, count := 0, lo := 0, hi := 0 })

/-- `reset`, `StatsQuantile.cpp:203-206`. -/
def reset (s : Sk V) : Sk V := initBuffers s

/-! ## Buffers -/

/-- Read written cells. Used in the model of `StatsQuantile.cpp:289-298` (`expandFull`). -/
def cells : List (Option V) → Res (List V)
  | [] => .ok []
  | none :: _ => .ub
  | some v :: l => do
    let vs ← cells l
    pure (v :: vs)

/-- `sort(buf, buf + m)`. Used in the model of `StatsQuantile.cpp:549-561` (`sortSlot`). -/
def sortBuf (b : List (Option V)) (m : Nat) : Res (List (Option V)) :=
  if m ≤ b.length then do
    let vs ← cells (b.take m)
    pure ((vs.insertionSort (· ≤ ·)).map some ++ b.drop m)
  else .ub

/-- A pointer that is used. Used in the model of `StatsQuantile.cpp:583-661` (`collapse`). -/
def nonNull {β : Type} : Option β → Res β
  | some b => .ok b
  | none => .ub

/-- `all_buffers[i][j]`, the cell being written before. Used in the model of `StatsQuantile.cpp:612-614` (`fillQueue`). -/
def cell (slots : List (Slot V)) (i j : Nat) : Res V := do
  let s ← PQ.rd slots i
  let b ← nonNull s.buf
  let x ← PQ.rd b j
  nonNull x

/-- Sort the first `m` cells of a buffer and set its flag. Used in the model of `StatsQuantile.cpp:549-561` (`collapseSortOne`). -/
def sortSlot (s : Slot V) (m : Nat) : Res (Slot V) := do
  let b ← nonNull s.buf
  let b ← sortBuf b m
  pure { s with buf := some b, sorted := true }

/-! ## Collapse -/

/-- The loop of `collapseFindFirstBuffer`, `StatsQuantile.cpp:383-387`, from `first_buffer`. -/
def findFirst (slots : List (Slot V)) : Nat → Nat
  | 0 => 0
  | f + 1 => if (slots[f]?.map (·.level)) ≠ (slots[f + 1]?.map (·.level)) then f + 1 else findFirst slots f

/-- `collapseFindFirstBuffer`, `StatsQuantile.cpp:378-393`. -/
def collapseFindFirst (s : Sk V) : Res Nat := do
  Res.require (decide (s.count < 100000000000000))
  let f := findFirst s.slots (s.slots.length - 1)
  Res.require (decide (f + 1 < s.slots.length))
  let x ← PQ.rd s.slots f
  Res.require (decide (x.level ≥ 0))
  pure f

/-- One round of the loop of `collapseSortBuffers`, `StatsQuantile.cpp:549-561`; `collapse_pos[i] = 0` needs `i < buffer_size`. -/
def collapseSortOne (k n i : Nat) (x : Slot V) : Res (Slot V) := do
  Res.require (decide (x.weight > 0))
  if i < k then
    if x.sorted then pure x
    else do
      Res.require (decide (i + 1 = n ∨ x.weight = 1))
      sortSlot x k
  else .ub

/-- `collapseSortBuffers`, `StatsQuantile.cpp:546-563`: the buffers from number `i` on. -/
def collapseSort (k n : Nat) : Nat → List (Slot V) → Res (List (Slot V))
  | _, [] => .ok []
  | i, x :: xs => do
    let x ← collapseSortOne k n i x
    let xs ← collapseSort k n (i + 1) xs
    pure (x :: xs)

/-- Sum of the weights, `StatsQuantile.cpp:549`. -/
def totalWeight (xs : List (Slot V)) : Int := (xs.map (·.weight)).sum

/-- `collapseNextQuantileOffset`, `StatsQuantile.cpp:565-581`: the offset and the new `collapse_even_low`. -/
def nextOffset (total : Int) (evenLow : Bool) : Int × Bool :=
  if total % 2 = 0 then (if evenLow then (total / 2, false) else ((total + 2) / 2, true))
  else ((total + 1) / 2, evenLow)

/-- `pairCmp`, `StatsQuantile.hpp:183-188`. -/
def pairCmp (a b : V × Nat) : Bool := decide (b.1 ≤ a.1)

/-- The loop filling the queue, `StatsQuantile.cpp:612-614`: `m` more buffers, from `i`. `collapse_pos` is zero for them. -/
def fillQueue (slots : List (Slot V)) : Nat → Nat → PQ.Q (V × Nat) → Res (PQ.Q (V × Nat))
  | 0, _, q => .ok q
  | m + 1, i, q => do
    let v ← cell slots i 0
    let q ← PQ.push pairCmp (c.zero, 0) q (v, i)
    fillQueue slots m (i + 1) q

/-- The loop of `collapse`, `StatsQuantile.cpp:618-643`; result: `tmp_buffer` and `next_quantile_offset`. -/
def mergeLoop (slots : List (Slot V)) (k : Nat) (total : Int) :
    Nat → PQ.Q (V × Nat) → List Nat → Int → Int → List V → Res (List V × Int)
  | 0, _, _, _, _, _ => .ub
  | fuel + 1, q, cp, curOff, nextOff, out =>
    if out.length < k then
      if q.size = 0 then .ub
      else do
        let t ← PQ.top q
        let p ← PQ.rd cp t.2
        let cp ← PQ.wr cp t.2 (p + 1)
        let s ← PQ.rd slots t.2
        let q ← (if p + 1 < k then do
            let v ← cell slots t.2 (p + 1)
            PQ.replaceTop pairCmp q (v, t.2)
          else PQ.pop pairCmp q)
        if curOff + s.weight > nextOff then
          mergeLoop slots k total fuel q cp (curOff + s.weight) (nextOff + total) (out ++ [t.1])
        else mergeLoop slots k total fuel q cp (curOff + s.weight) nextOff out
    else pure (out, nextOff)

/-- `collapse`, `StatsQuantile.cpp:583-661`. -/
def collapse (s : Sk V) : Res (Sk V) := do
  let f ← collapseFindFirst s
  let xs ← collapseSort s.size s.slots.length f (s.slots.drop f)
  let slots := s.slots.take f ++ xs
  let total := totalWeight xs
  let off := nextOffset total s.evenLow
  let q ← fillQueue c slots xs.length f (PQ.new (c.zero, 0) slots.length)
  let r ← mergeLoop slots s.size total (xs.length * s.size + 1) q (List.replicate s.size 0) 0 (off.1 - 1) []
  Res.require (decide (r.2 / total = s.size))
  let x ← PQ.rd slots f
  let b ← nonNull x.buf
  if b.length = s.size then
    pure { s with
      slots := s.slots.take f ++ ⟨some (r.1.map some), total, x.level + 1, true⟩ ::
        (xs.drop 1).map (fun y => { y with weight := -1, level := -1, sorted := false })
      cur1 := f + 2
      evenLow := off.2
      lo := s.lo + (off.1 - 1).toNat
      hi := s.hi + (total - off.1).toNat }
  else .ub

/-! ## Adding -/

/-- Room for one more value, `StatsQuantile.cpp:210-218`: next buffer, collapse when there is none, else sort the one just filled. -/
def nextBuffer (s : Sk V) : Res (Sk V) :=
  if s.cur1 = s.slots.length then do
    let s ← collapse c { s with cur1 := s.cur1 + 1, pos := 0 }
    pure { s with pos := 0 }
  else if s.cur1 > 0 then do
    let x ← PQ.rd s.slots (s.cur1 - 1)
    let x ← sortSlot x s.size
    pure { s with slots := (s.slots.set (s.cur1 - 1) x), cur1 := s.cur1 + 1, pos := 0 }
  else pure { s with cur1 := s.cur1 + 1, pos := 0 }

/-- Begin a buffer, `StatsQuantile.cpp:223-231`. -/
def beginBuffer (s : Sk V) : Res (Sk V) := do
  Res.require (decide (s.cur1 ≤ s.slots.length))
  if s.cur1 = 0 then .ub
  else do
    let x ← PQ.rd s.slots (s.cur1 - 1)
    let level ← (if s.cur1 = s.slots.length then do
        if s.cur1 = 1 then .ub
        else do
          let y ← PQ.rd s.slots (s.cur1 - 2)
          pure y.level
      else pure 0)
    let x' : Slot V := { x with buf := if s.lazy && x.buf.isNone then some (List.replicate s.size none) else x.buf, weight := 1, level := level }
    pure { s with slots := s.slots.set (s.cur1 - 1) x' }

/-- Write the value, `StatsQuantile.cpp:233-235`. -/
def putValue (s : Sk V) (v : V) : Res (Sk V) :=
  if s.cur1 = 0 then .ub
  else do
    let x ← PQ.rd s.slots (s.cur1 - 1)
    let b ← nonNull x.buf
    let b ← PQ.wr b s.pos (some v)
    let x' : Slot V := { x with buf := some b, sorted := false }
    pure { s with slots := s.slots.set (s.cur1 - 1) x', pos := s.pos + 1 }

/-- `addQuantile`, `StatsQuantile.cpp:208-236`. -/
def addQuantile (s : Sk V) (v : V) : Res (Sk V) := do
  let s ← (if s.pos ≥ s.size then do
      let s ← nextBuffer c s
      beginBuffer s
    else pure s)
  putValue s v

/-- `add(double)`, `StatsQuantile.cpp:238-241`. -/
def add (s : Sk V) (v : V) : Res (Sk V) := addQuantile c { s with count := s.count + 1 } v

/-- Used in the model of `StatsQuantile.cpp:243-306` (`merge`). -/
def addQuantiles : Sk V → List V → Res (Sk V)
  | s, [] => .ok s
  | s, v :: vs => do
    let s ← addQuantile c s v
    addQuantiles s vs

/-! ## Merging -/

/-- Copy the buffers up to `cur_buffer`, `StatsQuantile.cpp:255-265`. -/
def copySlots (k : Nat) : Nat → List (Slot V) → List (Slot V) → Res (List (Slot V))
  | 0, xs, _ => .ok xs
  | m + 1, x :: xs, y :: ys => do
    let dst := match x.buf with
      | some b => b
      | none => List.replicate k none
    let src ← nonNull y.buf
    if dst.length = k ∧ src.length = k then do
      let rest ← copySlots k m xs ys
      pure ({ y with buf := some src } :: rest)
    else .ub
  | _ + 1, _, _ => .ub

/-- The values of full buffers, each as often as its weight, `StatsQuantile.cpp:289-298`. -/
def expandFull (k : Nat) : List (Slot V) → Res (List V)
  | [] => .ok []
  | y :: ys => do
    let b ← nonNull y.buf
    if k ≤ b.length then do
      let vs ← cells (b.take k)
      let rest ← expandFull k ys
      pure (vs.flatMap (fun v => List.replicate y.weight.toNat v) ++ rest)
    else .ub

/-- The values of the last buffer, `StatsQuantile.cpp:299-305`. -/
def expandLast (pos : Nat) (y : Slot V) : Res (List V) := do
  let b ← nonNull y.buf
  if pos ≤ b.length then do
    let vs ← cells (b.take pos)
    pure (vs.flatMap (fun v => List.replicate y.weight.toNat v))
  else .ub

/-- `add(const Stats &)`, `StatsQuantile.cpp:243-306`, for two different objects. The values are read before the first is added; adding does not
change the object they are read from. `all_buffers[-1]` (line 299) is undefined. -/
def merge (s stat : Sk V) : Res (Sk V) :=
  let s := { s with count := s.count + stat.count }
  if (s.cur1 = 0 ∨ (s.cur1 = 1 ∧ s.pos = 0)) ∧ s.size = stat.size ∧ s.slots.length = stat.slots.length then do
    Res.require (decide (s.count = stat.count))
    Res.require (decide (stat.cur1 ≤ s.slots.length))
    let slots ← copySlots s.size stat.cur1 s.slots stat.slots
    pure { s with slots := slots, cur1 := stat.cur1, pos := stat.pos, evenLow := stat.evenLow, lo := stat.lo, hi := stat.hi }
  else do
    let a ← expandFull stat.size (stat.slots.take (stat.cur1 - 1))
    if stat.cur1 = 0 then .ub
    else do
      let y ← PQ.rd stat.slots (stat.cur1 - 1)
      let b ← expandLast stat.pos y
      let s ← addQuantiles c s (a ++ b)
      pure { s with lo := s.lo + stat.lo, hi := s.hi + stat.hi }

/-! ## Quantiles -/

/-- The target index, `StatsQuantile.cpp:360-373`, in doubles rounded by `R`. -/
def targetIndex (R : Flt.Rounding) (count : Nat) (q : Rat) : Nat :=
  let t := ⌈R.rnd (count * R.rnd (q - R.rnd (1 / 10 ^ 15)))⌉ - 1
  let t := if t < 0 then 0 else t
  if t = count then count - 1 else t.toNat

/-- Fill with infinity from position `m`, `StatsQuantile.cpp:349-351`. -/
def fillInf (b : List (Option V)) (m : Nat) : List (Option V) := b.take m ++ (b.drop m).map fun _ => some c.inf

/-- One round of the loop of `StatsQuantile.cpp:330-355`, for buffer `i`. -/
def sortForQuery (k cur pos i : Nat) (x : Slot V) : Res (Slot V) :=
  if i < k then
    if x.sorted then pure x
    else if i < cur then sortSlot x k
    else do
      let x ← sortSlot x pos
      pure { x with buf := x.buf.map (fillInf c · pos) }
  else .ub

/-- The loop of `StatsQuantile.cpp:330-355`, from buffer `i`, `m` rounds. -/
def sortAll (k cur pos : Nat) : Nat → Nat → List (Slot V) → Res (List (Slot V))
  | 0, _, xs => .ok xs
  | m + 1, i, x :: xs => do
    let x ← sortForQuery c k cur pos i x
    let xs ← sortAll k cur pos m (i + 1) xs
    pure (x :: xs)
  | _ + 1, _, [] => .ub

/-- `BinSearchState`, `StatsQuantile.cpp:446-451`, with the buffer it is for: its values up to `orig_max` and its weight. -/
structure Bin (V : Type) where
  vals : List V
  weight : Int
  min : Nat
  max : Nat
deriving Repr

/-- `biggestRemaining`, `StatsQuantile.cpp:462-472`: best so far and the states from `i` on. -/
def biggest (best rem : Nat) : Nat → List (Bin V) → Nat
  | _, [] => best
  | i, b :: bs => if b.max - b.min > rem then biggest i (b.max - b.min) (i + 1) bs else biggest best rem (i + 1) bs

/-- `lower_bound(buffer + min, buffer + max, x) - buffer`. Used in the model of `StatsQuantile.cpp:494-541` (`binSearch`). -/
def Bin.lower (b : Bin V) (x : V) : Nat := b.min + (((b.vals.take b.max).drop b.min).takeWhile (fun v => decide (v < x))).length

/-- `upper_bound(buffer + min, buffer + max, x) - buffer`. Used in the model of `StatsQuantile.cpp:494-541` (`binSearch`). -/
def Bin.upper (b : Bin V) (x : V) : Nat := b.min + (((b.vals.take b.max).drop b.min).takeWhile (fun v => decide (v ≤ x))).length

/-- The loop of `getQuantileByBinSearchIndex`, `StatsQuantile.cpp:494-541`. -/
def binSearch (target entries : Nat) : Nat → List (Bin V) → Res V
  | 0, _ => .ub
  | fuel + 1, st => match st with
    | [] => .ub
    | b0 :: bs => do
      let g := biggest 0 (b0.max - b0.min) 1 bs
      let b ← PQ.rd st g
      let x ← PQ.rd b.vals ((b.max + b.min) / 2)
      let cl : Int := (st.map fun b => b.weight * (b.lower x : Int)).sum
      let cm : Int := (st.map fun b => b.weight * ((b.upper x : Int) - b.lower x)).sum
      let cu : Int := (st.map fun b => b.weight * ((b.vals.length : Int) - b.upper x)).sum
      Res.require (decide (cl + cm + cu = entries))
      if (target : Int) < cl then do
        Res.require (st.all fun b => decide (b.min ≤ b.lower x))
        Res.require (st.any fun b => decide (b.max ≠ b.lower x))
        binSearch target entries fuel (st.map fun b => { b with max := b.lower x })
      else if (target : Int) < cl + cm then pure x
      else do
        Res.require (st.all fun b => decide (b.upper x ≤ b.max))
        Res.require (st.any fun b => decide (b.min ≠ b.upper x))
        binSearch target entries fuel (st.map fun b => { b with min := b.upper x })

/-- The full buffers for the search, `StatsQuantile.cpp:481`. -/
def binsFull (k : Nat) : List (Slot V) → Res (List (Bin V))
  | [] => .ok []
  | x :: xs => do
    let b ← nonNull x.buf
    let vs ← cells (b.take k)
    let rest ← binsFull k xs
    pure (⟨vs, x.weight, 0, vs.length⟩ :: rest)

/-- The last buffer for the search, `StatsQuantile.cpp:481-484`. -/
def binsLast (s : Sk V) (cur : Nat) : Res (List (Bin V)) :=
  if s.pos > 0 then do
    let x ← PQ.rd s.slots cur
    let b ← nonNull x.buf
    let vs ← cells (b.take s.pos)
    pure [⟨vs, x.weight, 0, vs.length⟩]
  else pure []

/-- `getQuantileByBinSearchIndex`, `StatsQuantile.cpp:477-543`; `cur` is `cur_buffer`. -/
def byBinSearch (s : Sk V) (cur target : Nat) : Res V := do
  let full ← binsFull s.size (s.slots.take cur)
  let last ← binsLast s cur
  let entries : Int := ((s.slots.take cur).map fun x => x.weight * (s.size : Int)).sum + s.pos
  Res.require (decide (entries = s.count))
  binSearch target s.count ((full ++ last).map (fun b : Bin V => b.vals.length)).sum.succ (full ++ last)

/-- `getQuantile`, `StatsQuantile.cpp:315-376`, with the target index worked out. `none` is NaN. The buffers are sorted on the way. -/
def query (s : Sk V) (target : Nat) (allow : Bool) : Res (Sk V × Option V) :=
  if s.count = 0 then pure (s, none)
  else do
    Res.require (decide (s.count ≤ s.nbound) || allow)
    let slots ← sortAll c s.size (s.cur1 - 1) s.pos s.cur1 0 s.slots
    Res.require (decide (s.count < 100000000000000))
    let s := { s with slots := slots }
    let v ← byBinSearch s (s.cur1 - 1) target
    pure (s, some v)

/-- `getQuantile`, `StatsQuantile.cpp:315-376`. -/
def getQuantile (R : Flt.Rounding) (s : Sk V) (q : Rat) (allow : Bool) : Res (Sk V × Option V) :=
  if s.count = 0 then pure (s, none)
  else do
    Res.require (decide (s.count ≤ s.nbound) || allow)
    Res.require (decide (0 ≤ q ∧ q ≤ 1))
    query c s (targetIndex R s.count q) allow

/-! ## The public constructor

`r` rounds to a double. The cache of sizes (lines 87-92, 118-121) is in `Cache.lean`. -/

/-- `StatsQuantile.cpp:53-59`. -/
def dfact (r : Rat → Rat) : Nat → Rat
  | 0 => 1
  | 1 => 1
  | n + 2 => r (dfact r (n + 1) * ((n + 2 : Nat) : Rat))

/-- `StatsQuantile.cpp:61-64`. -/
def dchoose (r : Rat → Rat) (b a : Nat) : Rat := r (dfact r b / r (dfact r (b - a) * dfact r a))

/-- `StatsQuantile.cpp:102`. -/
def paperV (r : Rat → Rat) (b h : Nat) : Rat :=
  r (r (r ((h - 2 : Nat) * dchoose r (b + h - 2) (h - 1)) - dchoose r (b + h - 3) (h - 3)) + dchoose r (b + h - 3) (h - 2))

/-- The loop over `h`, `StatsQuantile.cpp:100-107`, with `m` rounds left. -/
def height (r : Rat → Rat) (bd : Rat) (b : Nat) : Nat → Nat → Nat
  | 0, h => h
  | m + 1, h => if paperV r b h > bd then h - 1 else height r bd b m (h + 1)

/-- `StatsQuantile.cpp:108`. -/
def ksize (r : Rat → Rat) (bd N : Rat) (b : Nat) : Int := ⌈r (N / dchoose r (b + height r bd b 37 3 - 2) (height r bd b 37 3 - 1))⌉

/-- One round of the loop over `b`, `StatsQuantile.cpp:109-114`. -/
def betterB (r : Rat → Rat) (bd N : Rat) (best : Option (Nat × Int)) (b : Nat) : Option (Nat × Int) :=
  if r (b * ksize r bd N b) < 1000000000 then
    match best with
    | none => some (b, ksize r bd N b)
    | some (b', k') => if r (b * ksize r bd N b) < b' * k' then some (b, ksize r bd N b) else some (b', k')
  else best

/-- `StatsQuantile::StatsQuantile(double, int64_t, int, bool)`, `StatsQuantile.cpp:73-124`, up to the call of `init`: `nbuffers` and `buffer_size`. -/
def ctor (r : Rat → Rat) (ε : Rat) (inN : Nat) : Res (Nat × Nat) := do
  Res.require (decide (ε < r (2 / 10)))
  Res.require (decide (1 < inN))
  let N : Rat := r ((max 100 inN : Nat) : Rat)
  match (List.range' 2 28).foldl (betterB r (r (r (2 * ε) * N)) N) none with
  | none => .abort
  | some (b, k) => do
    Res.require (decide (0 < k))
    pure (b, max 10 k.toNat)

/-! ## Histories -/

/-- How a sketch came about. Made of the parts of `StatsQuantile.cpp:139-376`. -/
inductive Hist (V : Type) where
  | new (nbuffers size nbound : Nat) (lazy : Bool)
  | add (h : Hist V) (v : V)
  | merge (h h' : Hist V)
  | reset (h : Hist V)
  | query (h : Hist V) (target : Nat) (allow : Bool)

/-- Made of the parts of `StatsQuantile.cpp:139-376`. -/
def eval : Hist V → Res (Sk V)
  | .new n k b l => new n k b l
  | .add h v => do
    let s ← eval h
    add c s v
  | .merge h h' => do
    let s ← eval h
    let t ← eval h'
    merge c s t
  | .reset h => do
    let s ← eval h
    pure (reset s)
  | .query h t a => do
    let s ← eval h
    let r ← query c s t a
    pure r.1

end Verif.Quantile
