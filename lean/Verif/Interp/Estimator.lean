import Verif.Interp.Model
import Verif.Flt.Round

/-!
# The default estimator, `EstimateOffset` (`InterpolationSearch.hpp:37-47`)

Values are integers. `top` is the largest value of the type in which `last - first` is computed; a signed difference
above it is undefined behaviour (for an unsigned type, and for types narrower than `int`, it does not occur).
-/

namespace Verif.Interp

open Verif.Flt

/-- `EstimateOffset::operator()`, `InterpolationSearch.hpp:41-46`: conversions to `double`, the quotient and the
product are rounded; converting a negative number or one of `2^64` or more to `size_t` is undefined. -/
def estimate (F : Rounding) (top : Int) (v first last : Int) (lastPos : Nat) : Res Nat :=
  if last - first > top ∨ v - first > top then .ub
  else
    let rel := F.rnd (F.rnd ((v - first : Int) : ℚ) / F.rnd ((last - first : Int) : ℚ))
    let x := F.rnd (rel * F.rnd (lastPos : ℚ))
    if x < 0 ∨ 2 ^ 64 ≤ x then .ub else .ok ⌊x⌋.toNat

/-- Part of the model of `InterpolationSearch.hpp:41-46`. -/
def ltInt (x y : Int) : Bool := decide (x < y)

theorem estimate_in_range (F : Rounding) (top v first last : Int) (lastPos : Nat) (h1 : first < v) (h2 : v ≤ last)
    (h3 : last - first ≤ top) (hp : lastPos ≤ 2 ^ 53) : ∃ k, estimate F top v first last lastPos = .ok k ∧ k ≤ lastPos := by
  have hd1 : IsDouble 1 := ⟨1, 0, by norm_num, by simp⟩
  have hd0 : IsDouble 0 := ⟨0, 0, by norm_num, by simp⟩
  have hpd : IsDouble (lastPos : ℚ) := by
    have := isDouble_int (lastPos : ℤ) (by rw [abs_of_nonneg (by omega)]; exact_mod_cast hp)
    exact_mod_cast this
  have hle : F.rnd ((v - first : Int) : ℚ) ≤ F.rnd ((last - first : Int) : ℚ) := F.mono (by
    have : v - first ≤ last - first := by omega
    exact_mod_cast this)
  have hpos : 1 ≤ F.rnd ((v - first : Int) : ℚ) := F.ge_of_double hd1 (by
    have : 1 ≤ v - first := by omega
    exact_mod_cast this)
  have hq1 : F.rnd ((v - first : Int) : ℚ) / F.rnd ((last - first : Int) : ℚ) ≤ 1 := by
    rw [div_le_one (by linarith)]; exact hle
  have hq0 : 0 ≤ F.rnd ((v - first : Int) : ℚ) / F.rnd ((last - first : Int) : ℚ) :=
    div_nonneg (by linarith) (by linarith)
  have hr1 := F.le_of_double hd1 hq1
  have hr0 := F.ge_of_double hd0 hq0
  have hl0 : (0 : ℚ) ≤ lastPos := by positivity
  unfold estimate
  rw [if_neg (by omega)]
  simp only [F.exact hpd]
  generalize F.rnd (F.rnd ((v - first : Int) : ℚ) / F.rnd ((last - first : Int) : ℚ)) = rel at *
  have hx1 : F.rnd (rel * lastPos) ≤ lastPos := F.le_of_double hpd (by nlinarith)
  have hx0 : 0 ≤ F.rnd (rel * lastPos) := F.ge_of_double hd0 (by nlinarith)
  generalize F.rnd (rel * lastPos) = x at *
  have hp' : (lastPos : ℚ) ≤ 2 ^ 53 := by exact_mod_cast hp
  have h64 : (2 : ℚ) ^ 53 < 2 ^ 64 := by norm_num
  rw [if_neg (by push Not; exact ⟨hx0, by linarith⟩)]
  refine ⟨_, rfl, ?_⟩
  have : ⌊x⌋ ≤ (lastPos : ℤ) := by
    have := Int.floor_le_floor hx1
    rwa [Int.floor_natCast] at this
  omega

end Verif.Interp
