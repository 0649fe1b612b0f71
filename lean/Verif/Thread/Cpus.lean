import Verif.Num.Model

/-!
# Model of `PThreadMisc::getNCpus` on Linux (`/repo/src/PThread.cpp:65-127`)

The environment variable and the file are given; the static `cache_ncpus` is passed along. The lock makes the calls happen one after the other. A file is a
string of bytes; reading it does not fail. The conversion of the unsigned cache to the `int` that is returned (line 126) is modulo `2^32`, as every compiler
in use does it.
-/

namespace Verif.Thread.Cpus
open Verif Verif.Str

/-- `string processor("processor\t: ")`, line 83. -/
def processor : Str := [112, 114, 111, 99, 101, 115, 115, 111, 114, 9, 58, 32]

/-- `getline`: the line, what is left, and whether the end of the file was met. Used in the model of `PThread.cpp:84-89` (`countLoop`). -/
def getline : Str → Str × Str × Bool
  | [] => ([], [], true)
  | c :: s => if c = 10 then ([], s, false) else let x := getline s; (c :: x.1, x.2)

theorem getline_rest : ∀ s : Str, (getline s).2.2 = false → (getline s).2.1.length < s.length := by
  intro s
  induction s with
  | nil => simp [getline]
  | cons c s ih =>
    intro h
    unfold getline at h ⊢
    split
    · simp
    · next hc =>
      rw [if_neg hc] at h
      have := ih h
      simp only [List.length_cons]
      omega

/-- Lines 84-89; the counter is unsigned. -/
def countLoop (s : Str) (n : Nat) : Nat :=
  let n' := if prefixequal (getline s).1 processor then (n + 1) % 2 ^ 32 else n
  if (getline s).2.2 = false then countLoop (getline s).2.1 n' else n'
termination_by s.length
decreasing_by exact getline_rest s (by assumption)

/-- `int` from `unsigned`. Used in the model of `PThread.cpp:74` (`getNCpus`). -/
def toInt (n : Nat) : Int := if n < 2 ^ 31 then n else (n : Int) - 2 ^ 32

/-- Lines 71-124: the new value of the cache. -/
def fill (env file : Option Str) (cache : Nat) : Res Nat :=
  if cache = 0 then
    match env with
    | some e => do
      let x ← Num.stringToInteger Num.uint32 e
      Res.require (decide (0 < x.toNat))
      pure x.toNat
    | none =>
      match file with
      | none => .abort
      | some f => do
        let n := countLoop f cache
        Res.require (decide (0 < n))
        pure n
  else .ok cache

/-- `getNCpus`: the answer and the cache. Used in the model of `PThread.cpp:74` (`calls`). -/
def getNCpus (env file : Option Str) (cache : Nat) : Res (Int × Nat) := do
  let n ← fill env file cache
  Res.require (decide (0 < n))
  pure (toInt n, n)

/-- Calls one after the other, in environments that may change; a call that aborts (with assertions as exceptions) leaves what the cache held: zero, since
line 74 stores it before line 75 tests it and otherwise nothing was stored. -/
def calls (cache : Nat) : List (Option Str × Option Str) → List (Res Int)
  | [] => []
  | (env, file) :: cs =>
    match getNCpus env file cache with
    | .ok x => .ok x.1 :: calls x.2 cs
    | .abort => .abort :: calls cache cs
    | .ub => .ub :: calls cache cs

end Verif.Thread.Cpus
