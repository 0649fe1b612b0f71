import Verif.Res

/-!
# Modification times, `include/Lintel/FileUtil.hpp` (C150)
-/

namespace Verif.Misc.FileTime
open Verif

/-- An `int64_t` can hold it. -/
def fits (x : Int) : Prop := -2 ^ 63 ≤ x ∧ x < 2 ^ 63

instance (x : Int) : Decidable (fits x) := inferInstanceAs (Decidable (_ ∧ _))

/-- Signed arithmetic: undefined when the result does not fit. Used in the model of `FileUtil.hpp:26-30` (`modifyTime`). -/
def check (x : Int) : Res Int := if fits x then .ok x else .ub

/-- `modifyTimeNanoSec(const struct stat &)` on Linux, `FileUtil.hpp:26-30`: `static_cast<int64_t>(st_mtime) * 1000 * 1000 * 1000 + tv_nsec`, from left to right. -/
def modifyTime (sec nsec : Int) : Res Int := do
  let a ← check (sec * 1000)
  let b ← check (a * 1000)
  let c ← check (b * 1000)
  check (c + nsec)

/-- A time as the file system has it. Part of the model of `FileUtil.hpp:26-30`. -/
structure Stamp where
  sec : Int
  nsec : Int
deriving DecidableEq, Repr

/-- The nanoseconds are a part of a second. -/
def Stamp.Valid (t : Stamp) : Prop := 0 ≤ t.nsec ∧ t.nsec < 1000000000

/-- Earlier. -/
def Stamp.Before (a b : Stamp) : Prop := a.sec < b.sec ∨ (a.sec = b.sec ∧ a.nsec < b.nsec)

/-- The years from 1678 to 2261, in seconds. -/
def InRange (t : Stamp) : Prop := -9223372036 ≤ t.sec ∧ t.sec < 9223372036

theorem modifyTime_ok (t : Stamp) (hv : t.Valid) (hr : InRange t) : modifyTime t.sec t.nsec = .ok (t.sec * 1000000000 + t.nsec) := by
  obtain ⟨v1, v2⟩ := hv
  obtain ⟨r1, r2⟩ := hr
  unfold modifyTime check
  rw [if_pos (by unfold fits; omega)]
  simp only [Res.bind_ok]
  rw [if_pos (by unfold fits; omega)]
  simp only [Res.bind_ok]
  rw [if_pos (by unfold fits; omega)]
  simp only [Res.bind_ok]
  rw [if_pos (by unfold fits; omega)]
  congr 1
  omega

/-- For times between the years 1678 and 2261 the number is the one of nanoseconds since 1970, and numbers compare as the times do: none are equal, the earlier is the smaller. -/
theorem modifyTime_order_partial (a b : Stamp) (ha : a.Valid) (hb : b.Valid) (ra : InRange a) (rb : InRange b) :
    ∃ x y, modifyTime a.sec a.nsec = .ok x ∧ modifyTime b.sec b.nsec = .ok y ∧ x = a.sec * 1000000000 + a.nsec ∧ (x < y ↔ a.Before b) ∧ (x = y ↔ a = b) := by
  refine ⟨_, _, modifyTime_ok a ha ra, modifyTime_ok b hb rb, rfl, ?_, ?_⟩
  · unfold Stamp.Before
    obtain ⟨a1, a2⟩ := ha
    obtain ⟨b1, b2⟩ := hb
    omega
  · obtain ⟨a1, a2⟩ := ha
    obtain ⟨b1, b2⟩ := hb
    obtain ⟨s1, n1⟩ := a
    obtain ⟨s2, n2⟩ := b
    simp only [Stamp.mk.injEq] at *
    omega

example : Stamp.Valid ⟨1352983342, 5⟩ ∧ Stamp.Valid ⟨1352983342, 999999999⟩ ∧ InRange ⟨1352983342, 5⟩ ∧ Stamp.Before ⟨1352983342, 5⟩ ⟨1352983342, 999999999⟩ := by
  refine ⟨⟨by decide, by decide⟩, ⟨by decide, by decide⟩, ⟨by decide, by decide⟩, .inr ⟨rfl, by decide⟩⟩

/-- Outside it is undefined, for every such time (64-bit time stamps allow them, and `touch -d` makes them). -/
theorem modifyTime_false (t : Stamp) (h : t.sec ≤ -9223372037 ∨ 9223372037 ≤ t.sec) : modifyTime t.sec t.nsec = .ub := by
  unfold modifyTime check
  by_cases h1 : fits (t.sec * 1000)
  · rw [if_pos h1]
    simp only [Res.bind_ok]
    by_cases h2 : fits (t.sec * 1000 * 1000)
    · rw [if_pos h2]
      simp only [Res.bind_ok]
      rw [if_neg (by unfold fits; omega)]
      rfl
    · rw [if_neg h2]; rfl
  · rw [if_neg h1]; rfl

example : (9223372037 : Int) ≤ (Stamp.mk 10000000000 0).sec := by decide

end Verif.Misc.FileTime
