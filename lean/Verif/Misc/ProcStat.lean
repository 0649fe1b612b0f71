import Verif.Res

/-!
# Statistics of a process, `src/unstable/ProcessStatistics.cpp` (C152)

What the file `/proc/<pid>/statm` says changes with time: `kernel n` is what the `n`-th reading finds (none if it cannot be read or has fewer than seven numbers).
-/

namespace Verif.Misc.ProcStat
open Verif

/-- The first two of the seven numbers, in pages. Used in the model of `ProcessStatistics.cpp:56-65` (`invalidate`). -/
structure Statm where
  size : Nat
  resident : Nat
deriving DecidableEq, Repr

/-- `enum StatType`, `ProcessStatistics.hpp:18-22`. -/
inductive Which where
  | invalid
  | addressSize
  | residentSize
deriving DecidableEq, Repr

/-- The object: the number of readings made, and the last one. Used in the model of `ProcessStatistics.cpp:56-65` (`invalidate`). -/
structure Obj where
  reads : Nat
  res : Statm
deriving DecidableEq, Repr

/-- `size_t` arithmetic. Used in the model of `ProcessStatistics.cpp:32-41` (`getCached`). -/
def wrap (x : Nat) : Nat := x % 2 ^ 64

/-- `invalidate`, `ProcessStatistics.cpp:56-65`. -/
def invalidate (kernel : Nat → Option Statm) (o : Obj) : Res Obj :=
  match kernel o.reads with
  | none => .abort
  | some s => .ok ⟨o.reads + 1, s⟩

/-- The constructor, `ProcessStatistics.cpp:15-26`. -/
def create (kernel : Nat → Option Statm) : Res Obj := invalidate kernel ⟨0, ⟨0, 0⟩⟩

/-- `getCached`, `ProcessStatistics.cpp:32-41`. -/
def getCached (page : Nat) (o : Obj) (w : Which) : Res Nat :=
  match w with
  | .addressSize => .ok (wrap (o.res.size * page))
  | .residentSize => .ok (wrap (o.res.resident * page))
  | .invalid => .abort

/-- `get`, `ProcessStatistics.cpp:43-46`. -/
def get (kernel : Nat → Option Statm) (page : Nat) (o : Obj) (w : Which) : Res (Nat × Obj) := do
  let o' ← invalidate kernel o
  let v ← getCached page o' w
  .ok (v, o')

/-- `supported`, `ProcessStatistics.cpp:48-54`. -/
def supported : Which → Bool
  | .addressSize => true
  | .residentSize => true
  | .invalid => false

/-- The calls a program makes. Not a function of the code; stands for the uses of `ProcessStatistics.cpp:32-65`. -/
inductive Op where
  | get (w : Which)
  | getCached (w : Which)
  | invalidate
deriving DecidableEq, Repr

/-- The results of the calls, in order. Not a function of the code; stands for the uses of `ProcessStatistics.cpp:32-65`. -/
def run (kernel : Nat → Option Statm) (page : Nat) : Obj → List Op → Res (List (Option Nat))
  | _, [] => .ok []
  | o, .get w :: ops => do
    let (v, o') ← get kernel page o w
    let vs ← run kernel page o' ops
    .ok (some v :: vs)
  | o, .getCached w :: ops => do
    let v ← getCached page o w
    let vs ← run kernel page o ops
    .ok (some v :: vs)
  | o, .invalidate :: ops => do
    let o' ← invalidate kernel o
    let vs ← run kernel page o' ops
    .ok (none :: vs)

/-! ## What they should be -/

/-- Whether a call makes sure that the answer is fresh. Made of the parts of `ProcessStatistics.cpp:32-41`. -/
def Op.fresh : Op → Bool
  | .getCached _ => false
  | _ => true

/-- The number of bytes of a statistic. Made of the parts of `ProcessStatistics.hpp:18-22`. -/
def bytes (page : Nat) (s : Statm) : Which → Option Nat
  | .addressSize => some (s.size * page)
  | .residentSize => some (s.resident * page)
  | .invalid => none

/-- Which of the readings a call must be answered from: the object is made with reading 0, and each `get` and `invalidate` makes another. Made of the parts of `ProcessStatistics.cpp:32-65`. -/
def readingAt (ops : List Op) (i : Nat) : Nat := ((ops.take (i + 1)).filter Op.fresh).length

/-- What a call is answered. Made of the parts of `ProcessStatistics.cpp:32-65`. -/
def answer (kernel : Nat → Option Statm) (page : Nat) (n : Nat) (op : Op) : Option Nat :=
  match op with
  | .invalidate => none
  | .get w => (kernel n).bind fun s => bytes page s w
  | .getCached w => (kernel n).bind fun s => bytes page s w

theorem getCached_bytes {page : Nat} {o : Obj} {w : Which} {v : Nat} (hf : o.res.size * page < 2 ^ 64) (hr : o.res.resident * page < 2 ^ 64)
    (h : getCached page o w = .ok v) : bytes page o.res w = some v := by
  unfold getCached at h
  cases w <;> simp only [wrap] at h <;> cases h
  · simp only [bytes]; rw [Nat.mod_eq_of_lt hf]
  · simp only [bytes]; rw [Nat.mod_eq_of_lt hr]

theorem run_spec (kernel : Nat → Option Statm) (page : Nat) (hb : ∀ n s, kernel n = some s → s.size * page < 2 ^ 64 ∧ s.resident * page < 2 ^ 64)
    (ops : List Op) : ∀ (o : Obj) (k : Nat), o.reads = k + 1 → kernel k = some o.res → ∀ vs, run kernel page o ops = .ok vs →
      vs.length = ops.length ∧ ∀ i (h : i < ops.length), vs[i]? = some (answer kernel page (k + readingAt ops i) ops[i]) := by
  induction ops with
  | nil =>
    intro o k _ _ vs h
    cases h
    exact ⟨rfl, fun i h => absurd h (by simp)⟩
  | cons op ops ih =>
    intro o k ho hk vs h
    have hbk := hb k o.res hk
    -- a fresh reading
    have fresh : ∀ o', invalidate kernel o = .ok o' → o'.reads = k + 1 + 1 ∧ kernel (k + 1) = some o'.res := by
      intro o' h'
      unfold invalidate at h'
      rw [ho] at h'
      cases hkk : kernel (k + 1) with
      | none => rw [hkk] at h'; cases h'
      | some s => rw [hkk] at h'; cases h'; exact ⟨rfl, rfl⟩
    cases op with
    | get w =>
      simp only [run, get] at h
      cases hi : invalidate kernel o with
      | abort => rw [hi] at h; cases h
      | ub => rw [hi] at h; cases h
      | ok o' =>
        rw [hi] at h
        simp only [Res.bind_ok] at h
        cases hg : getCached page o' w with
        | abort => rw [hg] at h; cases h
        | ub => rw [hg] at h; cases h
        | ok v =>
          rw [hg] at h
          simp only [Res.bind_ok] at h
          cases hr : run kernel page o' ops with
          | abort => rw [hr] at h; cases h
          | ub => rw [hr] at h; cases h
          | ok vs' =>
            rw [hr] at h
            simp only [Res.bind_ok] at h
            cases h
            obtain ⟨f1, f2⟩ := fresh o' hi
            obtain ⟨l1, l2⟩ := ih o' (k + 1) f1 f2 vs' hr
            refine ⟨by simp [l1], ?_⟩
            intro i hl
            cases i with
            | zero =>
              have e : readingAt (Op.get w :: ops) 0 = 1 := rfl
              rw [e]
              have hb' := hb (k + 1) o'.res f2
              simp [answer, f2, getCached_bytes hb'.1 hb'.2 hg]
            | succ i =>
              have e : readingAt (Op.get w :: ops) (i + 1) = readingAt ops i + 1 := by
                simp only [readingAt, List.take_succ_cons]
                rw [List.filter_cons_of_pos (by rfl), List.length_cons]
              rw [e, show k + (readingAt ops i + 1) = k + 1 + readingAt ops i from by omega]
              simpa using l2 i (by simpa using hl)
    | getCached w =>
      simp only [run] at h
      cases hg : getCached page o w with
      | abort => rw [hg] at h; cases h
      | ub => rw [hg] at h; cases h
      | ok v =>
        rw [hg] at h
        simp only [Res.bind_ok] at h
        cases hr : run kernel page o ops with
        | abort => rw [hr] at h; cases h
        | ub => rw [hr] at h; cases h
        | ok vs' =>
          rw [hr] at h
          simp only [Res.bind_ok] at h
          cases h
          obtain ⟨l1, l2⟩ := ih o k ho hk vs' hr
          refine ⟨by simp [l1], ?_⟩
          intro i hl
          cases i with
          | zero =>
            have e : readingAt (Op.getCached w :: ops) 0 = 0 := rfl
            rw [e]
            simp [answer, hk, getCached_bytes hbk.1 hbk.2 hg]
          | succ i =>
            have e : readingAt (Op.getCached w :: ops) (i + 1) = readingAt ops i := by
              simp only [readingAt, List.take_succ_cons]
              rw [List.filter_cons_of_neg (by simp [Op.fresh])]
            rw [e]
            simpa using l2 i (by simpa using hl)
    | invalidate =>
      simp only [run] at h
      cases hi : invalidate kernel o with
      | abort => rw [hi] at h; cases h
      | ub => rw [hi] at h; cases h
      | ok o' =>
        rw [hi] at h
        simp only [Res.bind_ok] at h
        cases hr : run kernel page o' ops with
        | abort => rw [hr] at h; cases h
        | ub => rw [hr] at h; cases h
        | ok vs' =>
          rw [hr] at h
          simp only [Res.bind_ok] at h
          cases h
          obtain ⟨f1, f2⟩ := fresh o' hi
          obtain ⟨l1, l2⟩ := ih o' (k + 1) f1 f2 vs' hr
          refine ⟨by simp [l1], ?_⟩
          intro i hl
          cases i with
          | zero => simp [answer]
          | succ i =>
            have e : readingAt (Op.invalidate :: ops) (i + 1) = readingAt ops i + 1 := by
              simp only [readingAt, List.take_succ_cons]
              rw [List.filter_cons_of_pos (by rfl), List.length_cons]
            rw [e, show k + (readingAt ops i + 1) = k + 1 + readingAt ops i from by omega]
            simpa using l2 i (by simpa using hl)

/-- Every call of a program is answered with the number of bytes from one reading of the file: `get` from one made for it, `getCached` from the last one made by `get`, `invalidate` or the constructor. This is for sizes
below 2^64 bytes. -/
theorem statistics_fresh (kernel : Nat → Option Statm) (page : Nat) (hb : ∀ n s, kernel n = some s → s.size * page < 2 ^ 64 ∧ s.resident * page < 2 ^ 64)
    (o : Obj) (hc : create kernel = .ok o) (ops : List Op) (vs : List (Option Nat)) (h : run kernel page o ops = .ok vs) :
    vs.length = ops.length ∧ ∀ i (h : i < ops.length), vs[i]? = some (answer kernel page (readingAt ops i) ops[i]) := by
  unfold create invalidate at hc
  cases hk : kernel 0 with
  | none => simp [hk] at hc
  | some s =>
    simp only [hk] at hc
    cases hc
    have := run_spec kernel page hb ops ⟨0 + 1, s⟩ 0 rfl hk vs h
    simpa using this

/-- A process that grows by a page with each reading. Made of the parts of `ProcessStatistics.cpp:56-65`. -/
def growing : Nat → Option Statm := fun n => some ⟨(100 + n) % 2 ^ 50, 7⟩

example : (∀ n s, growing n = some s → s.size * 4096 < 2 ^ 64 ∧ s.resident * 4096 < 2 ^ 64) ∧
    run growing 4096 ⟨1, ⟨100, 7⟩⟩ [.getCached .addressSize, .get .addressSize, .invalidate, .getCached .addressSize, .getCached .residentSize] =
      .ok [some 409600, some 413696, none, some 417792, some 28672] ∧ create growing = .ok ⟨1, ⟨100, 7⟩⟩ := by
  refine ⟨?_, by decide, by decide⟩
  intro n s h
  cases h
  have := Nat.mod_lt (100 + n) (show 0 < 2 ^ 50 from by decide)
  exact ⟨by show (100 + n) % 2 ^ 50 * 4096 < 2 ^ 64; omega, by show 7 * 4096 < 2 ^ 64; decide⟩

/-- Calls abort only because the file cannot be read, or for a statistic that is not supported. -/
theorem statistics_abort (kernel : Nat → Option Statm) (page : Nat) (o : Obj) (w : Which) (hk : ∀ n, kernel n ≠ none) :
    (∃ v o', get kernel page o w = .ok (v, o')) ↔ supported w = true := by
  cases hi : kernel o.reads with
  | none => exact absurd hi (hk _)
  | some s =>
    cases w <;> simp [get, invalidate, hi, getCached, supported]

example : ∀ n, growing n ≠ none := by simp [growing]

end Verif.Misc.ProcStat
