import Mathlib.Data.Rat.Floor
import Mathlib.Data.Int.Log
import Mathlib.Tactic.Linarith
import Mathlib.Tactic.Positivity
import Mathlib.Tactic.Ring
import Mathlib.Tactic.FieldSimp
import Mathlib.Tactic.NormNum

/-!
# Rounding to `double`

Arithmetic on `double` is exact arithmetic on rationals followed by rounding to the nearest number of 53
significant bits. The exponent range is not modelled: the theorems that use this file are about numbers between
`2^-100` and `2^100`, far from overflow and from subnormal numbers. Every tie rule is allowed; `ieee` is the one
processors use.
-/

namespace Verif.Flt

/-- A number of 53 significant bits. -/
def IsDouble (x : ℚ) : Prop := ∃ m e : ℤ, |m| ≤ 2 ^ 53 ∧ x = m * (2 : ℚ) ^ e

/-- Rounding to a nearest `double`. -/
structure Rounding where
  rnd : ℚ → ℚ
  isDouble : ∀ x, IsDouble (rnd x)
  nearest : ∀ x y, IsDouble y → |rnd x - x| ≤ |y - x|

theorem isDouble_int (m : ℤ) (h : |m| ≤ 2 ^ 53) : IsDouble m := ⟨m, 0, h, by simp⟩

theorem isDouble_scale {x : ℚ} (h : IsDouble x) (k : ℤ) : IsDouble (x * (2 : ℚ) ^ k) := by
  obtain ⟨m, e, hm, rfl⟩ := h
  exact ⟨m, e + k, hm, by rw [zpow_add₀ (by norm_num)]; ring⟩

theorem isDouble_neg {x : ℚ} (h : IsDouble x) : IsDouble (-x) := by
  obtain ⟨m, e, hm, rfl⟩ := h
  exact ⟨-m, e, by rwa [abs_neg], by push_cast; ring⟩

namespace Rounding
variable (F : Rounding)

theorem exact {x : ℚ} (h : IsDouble x) : F.rnd x = x := by
  have := F.nearest x x h
  rw [sub_self, abs_zero] at this
  have := abs_nonpos_iff.1 this
  linarith

theorem mono {x y : ℚ} (h : x ≤ y) : F.rnd x ≤ F.rnd y := by
  rcases eq_or_lt_of_le h with rfl | h
  · exact le_refl _
  · by_contra hc
    push Not at hc
    have h1 := F.nearest x (F.rnd y) (F.isDouble y)
    have h2 := F.nearest y (F.rnd x) (F.isDouble x)
    rcases abs_cases (F.rnd x - x) with ⟨a1, b1⟩ | ⟨a1, b1⟩ <;> rcases abs_cases (F.rnd y - x) with ⟨a2, b2⟩ | ⟨a2, b2⟩ <;>
      rcases abs_cases (F.rnd y - y) with ⟨a3, b3⟩ | ⟨a3, b3⟩ <;> rcases abs_cases (F.rnd x - y) with ⟨a4, b4⟩ | ⟨a4, b4⟩ <;>
      rw [a1, a2] at h1 <;> rw [a3, a4] at h2 <;> linarith

theorem le_of_double {x y : ℚ} (h : IsDouble y) (hx : x ≤ y) : F.rnd x ≤ y := by
  rw [← F.exact h]; exact F.mono hx

theorem ge_of_double {x y : ℚ} (h : IsDouble y) (hx : y ≤ x) : y ≤ F.rnd x := by
  rw [← F.exact h]; exact F.mono hx

end Rounding

/-- The unit in the last place of the binade of `x`. -/
def ulp (x : ℚ) : ℚ := (2 : ℚ) ^ (Int.log 2 |x| - 52)

theorem ulp_pos (x : ℚ) : 0 < ulp x := zpow_pos (by norm_num) _

theorem ulp_bounds {x : ℚ} (h : x ≠ 0) : 2 ^ 52 * ulp x ≤ |x| ∧ |x| < 2 ^ 53 * ulp x := by
  have hx : 0 < |x| := abs_pos.2 h
  have h1 := Int.zpow_log_le_self (b := 2) (by norm_num) hx
  have h2 := Int.lt_zpow_succ_log_self (b := 2) (by norm_num) |x|
  have e1 : (2 : ℚ) ^ 52 * ulp x = 2 ^ Int.log 2 |x| := by
    unfold ulp
    rw [← zpow_natCast, ← zpow_add₀ (by norm_num)]
    congr 1; push_cast; ring
  have e2 : (2 : ℚ) ^ 53 * ulp x = 2 ^ (Int.log 2 |x| + 1) := by
    unfold ulp
    rw [← zpow_natCast, ← zpow_add₀ (by norm_num)]
    congr 1; push_cast; ring
  rw [e1, e2]
  exact ⟨by exact_mod_cast h1, by exact_mod_cast h2⟩

/-- Half of a unit in the last place bounds the error. -/
theorem Rounding.err_ulp (F : Rounding) {x : ℚ} (h : x ≠ 0) : |F.rnd x - x| ≤ ulp x / 2 := by
  have hu := ulp_pos x
  obtain ⟨h1, h2⟩ := ulp_bounds h
  have hr := abs_sub_round (x / ulp x)
  have hd : IsDouble (round (x / ulp x) * ulp x) := by
    refine ⟨round (x / ulp x), _, ?_, rfl⟩
    have h3 : |x / ulp x| < 2 ^ 53 := by
      rw [abs_div, abs_of_pos hu, div_lt_iff₀ hu]; exact h2
    have h4 : |(round (x / ulp x) : ℚ)| ≤ |x / ulp x| + 1 / 2 := by
      have := abs_sub_abs_le_abs_sub (round (x / ulp x) : ℚ) (x / ulp x)
      rw [abs_sub_comm] at this
      linarith
    have h5 : |(round (x / ulp x) : ℚ)| < 2 ^ 53 + 1 := by linarith
    have h6 : |round (x / ulp x)| < 2 ^ 53 + 1 := by exact_mod_cast h5
    omega
  refine (F.nearest x _ hd).trans ?_
  have : (round (x / ulp x) : ℚ) * ulp x - x = (round (x / ulp x) - x / ulp x) * ulp x := by field_simp
  rw [this, abs_mul, abs_of_pos hu, abs_sub_comm]
  nlinarith

/-- The relative error is at most `2^-53`. -/
theorem Rounding.err (F : Rounding) (x : ℚ) : |F.rnd x - x| ≤ |x| / 2 ^ 53 := by
  by_cases h : x = 0
  · subst h
    have : F.rnd 0 = 0 := F.exact ⟨0, 0, by norm_num, by simp⟩
    rw [this]; norm_num
  · have h1 := F.err_ulp h
    have h2 := (ulp_bounds h).1
    refine h1.trans ?_
    rw [le_div_iff₀ (by positivity)]
    nlinarith [ulp_pos x]

/-! ## Round to nearest, ties to even -/

/-- The nearest integer, an even one when two are equally near. -/
def rne (q : ℚ) : ℤ :=
  if Int.fract q < 1 / 2 then ⌊q⌋
  else if 1 / 2 < Int.fract q then ⌊q⌋ + 1
  else if ⌊q⌋ % 2 = 0 then ⌊q⌋ else ⌊q⌋ + 1

theorem rne_nearest (q : ℚ) (m : ℤ) : |(rne q : ℚ) - q| ≤ |(m : ℚ) - q| := by
  have hf0 := Int.fract_nonneg q
  have hf1 := Int.fract_lt_one q
  have hq : q = ⌊q⌋ + Int.fract q := (Int.floor_add_fract q).symm
  generalize hF : Int.fract q = d at *
  generalize hn : ⌊q⌋ = n at *
  have key : |(rne q : ℚ) - q| = min d (1 - d) := by
    unfold rne
    rw [hF, hn]
    split
    · rw [min_eq_left (by linarith), hq, abs_sub_comm]
      rw [show (n : ℚ) + d - n = d by ring, abs_of_nonneg hf0]
    · split
      · rw [min_eq_right (by linarith), hq]
        push_cast
        rw [show (n : ℚ) + 1 - (n + d) = 1 - d by ring, abs_of_nonneg (by linarith)]
      · have hd : d = 1 / 2 := by linarith
        split
        · rw [min_eq_left (by linarith), hq, abs_sub_comm]
          rw [show (n : ℚ) + d - n = d by ring, abs_of_nonneg hf0]
        · rw [min_eq_right (by linarith), hq]
          push_cast
          rw [show (n : ℚ) + 1 - (n + d) = 1 - d by ring, abs_of_nonneg (by linarith)]
  rw [key, hq]
  rcases le_or_gt m n with h | h
  · have : (m : ℚ) ≤ n := by exact_mod_cast h
    rw [abs_sub_comm, abs_of_nonneg (by linarith)]
    exact (min_le_left _ _).trans (by linarith)
  · have : (n : ℚ) + 1 ≤ m := by exact_mod_cast h
    rw [abs_of_nonneg (by linarith)]
    exact (min_le_right _ _).trans (by linarith)

def ieeeRnd (x : ℚ) : ℚ := if x = 0 then 0 else rne (x / ulp x) * ulp x

theorem ieee_near {x : ℚ} (h : x ≠ 0) (m : ℤ) : |ieeeRnd x - x| ≤ |m * ulp x - x| := by
  have hu := ulp_pos x
  have h1 := rne_nearest (x / ulp x) m
  unfold ieeeRnd
  rw [if_neg h]
  have e : ∀ k : ℤ, |(k : ℚ) * ulp x - x| = |(k : ℚ) - x / ulp x| * ulp x := by
    intro k
    have : (k : ℚ) * ulp x - x = (k - x / ulp x) * ulp x := by field_simp
    rw [this, abs_mul, abs_of_pos hu]
  rw [e, e]
  exact mul_le_mul_of_nonneg_right h1 hu.le

theorem ieee_double (x : ℚ) : IsDouble (ieeeRnd x) := by
  by_cases h : x = 0
  · subst h; exact ⟨0, 0, by norm_num, by simp [ieeeRnd]⟩
  · have hu := ulp_pos x
    refine ⟨rne (x / ulp x), _, ?_, by rw [ieeeRnd, if_neg h]; rfl⟩
    have h3 : |x / ulp x| < 2 ^ 53 := by
      rw [abs_div, abs_of_pos hu, div_lt_iff₀ hu]; exact (ulp_bounds h).2
    have h4 := rne_nearest (x / ulp x) (round (x / ulp x))
    have h4' := abs_sub_round (x / ulp x)
    rw [abs_sub_comm] at h4'
    have h5 := abs_sub_abs_le_abs_sub (rne (x / ulp x) : ℚ) (x / ulp x)
    have h6 : |(rne (x / ulp x) : ℚ)| < 2 ^ 53 + 1 := by linarith
    have h7 : |rne (x / ulp x)| < 2 ^ 53 + 1 := by exact_mod_cast h6
    omega

theorem ieee_nearest (x y : ℚ) (hy : IsDouble y) : |ieeeRnd x - x| ≤ |y - x| := by
  by_cases h : x = 0
  · subst h; simp [ieeeRnd]
  · obtain ⟨m, e, hm, rfl⟩ := hy
    have hu := ulp_pos x
    by_cases he : Int.log 2 |x| - 52 ≤ e
    · obtain ⟨j, hj⟩ : ∃ j : ℕ, e = (Int.log 2 |x| - 52) + j := ⟨(e - (Int.log 2 |x| - 52)).toNat, by omega⟩
      have := ieee_near h (m * 2 ^ j)
      refine this.trans (le_of_eq ?_)
      congr 1
      rw [hj, zpow_add₀ (by norm_num), zpow_natCast]
      unfold ulp
      push_cast; ring
    · -- `y` lies below the binade of `x`
      have hyb : |(m : ℚ) * 2 ^ e| ≤ 2 ^ 52 * ulp x := by
        rw [abs_mul, abs_of_pos (zpow_pos (by norm_num : (0 : ℚ) < 2) e)]
        have h1 : |(m : ℚ)| ≤ 2 ^ 53 := by exact_mod_cast hm
        have h2 : (2 : ℚ) ^ e ≤ 2 ^ (Int.log 2 |x| - 52 - 1) := zpow_le_zpow_right₀ (by norm_num) (by omega)
        have h3 : (2 : ℚ) ^ (Int.log 2 |x| - 52 - 1) = ulp x / 2 := by
          unfold ulp; rw [zpow_sub_one₀ (by norm_num)]; ring
        rw [h3] at h2
        have h4 : (0 : ℚ) < 2 ^ e := zpow_pos (by norm_num) e
        nlinarith
      have hx := (ulp_bounds h).1
      rcases le_or_gt 0 x with h0 | h0
      · have := ieee_near h (2 ^ 52)
        refine this.trans ?_
        rw [abs_of_nonneg h0] at hx
        have := (abs_le.1 hyb).2
        push_cast
        rw [abs_sub_comm, abs_of_nonneg (by linarith), abs_sub_comm, abs_of_nonneg (by linarith)]
        linarith
      · have := ieee_near h (-2 ^ 52)
        refine this.trans ?_
        rw [abs_of_neg h0] at hx
        have := (abs_le.1 hyb).1
        push_cast
        rw [abs_of_nonneg (by linarith), abs_of_nonneg (by linarith)]
        linarith

/-- Round to nearest, ties to even. -/
def ieee : Rounding := ⟨ieeeRnd, ieee_double, ieee_nearest⟩

end Verif.Flt
