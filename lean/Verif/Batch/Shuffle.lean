/-!
# Model of `shuffle` and of the division into jobs

`/repo/src/BatchParallel/common.pm:21-27`; `/repo/src/batch-parallel.in:322-380` (the size of a group), `387`, `410` (the number of jobs), `430-478` (what a job does).
-/

namespace Verif.Batch
variable {α : Type}

/-- Line 25: exchange two elements. -/
def swap (l : List α) (i j : Nat) : List α :=
  match l[i]?, l[j]? with
  | some a, some b => (l.set i b).set j a
  | _, _ => l

/-- Lines 23-26 from `i` on: `int(rand($i))` is some number below `$i`; `draw` gives it. -/
def shuffleFrom (draw : Nat → Nat) (l : List α) (i : Nat) : List α :=
  if i < l.length then shuffleFrom draw (swap l i (draw i % i)) (i + 1) else l
termination_by l.length - i
decreasing_by
  have : (swap l i (draw i % i)).length = l.length := by
    unfold swap
    split <;> simp
  omega

/-- `shuffle`, lines 21-27. -/
def shuffle (draw : Nat → Nat) (l : List α) : List α := shuffleFrom draw l 1

/-- `ceil(n / d)`. Perl divides doubles; below 2^53 the result is the same. Used in the model of `common.pm:340-364` (`batchSize`). -/
def ceilDiv (n d : Nat) : Nat := (n + d - 1) / d

/-- Lines 340-364: the size of a group, or `none` where perl dies of a division by zero. `limit` is what LSF says, line 354. The comparison of line 344 is multiplied out. -/
def batchSize (n : Nat) (groupsize maxgroups : Option Nat) (width : Nat) (limit : Option Nat) : Option Nat :=
  match groupsize with
  | some g => if g = 0 then none else if n > 2 * n then some (ceilDiv n g) else some g
  | none =>
    let m := match maxgroups with
      | some m => m
      | none => min (width * 5) (limit.getD 1000)
    if n ≥ m then (if m = 0 then none else some (ceilDiv n m)) else some 1

/-- Line 387: the number of jobs. -/
def njobs (n size : Nat) : Nat := ceilDiv n size

/-- `batch_exec`, lines 430-478: the things job `index` (from 1) is to do; `none` where it dies. -/
def jobThings (things : List α) (size index : Nat) : Option (List α) :=
  if index = 0 then none
  else
    let start := (index - 1) * size
    let stop := min (start + size) things.length
    if stop > start then some ((things.drop start).take (stop - start)) else none

end Verif.Batch
