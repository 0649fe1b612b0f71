import Verif.LogNormal.Moments

/-! # Truncated log-normal distributions (C116, C117, C118) -/

namespace Verif.LogNormal
open Verif Real MeasureTheory Set

/-! ## Moments (C116) -/

theorem integral_density (m s U : ℝ) (hs : 0 < s) (hU : 0 < U) :
    ∫ x in Ioo 0 U, density m s x = (1 + erf ((log U - m) / √2 / s)) / 2 := by
  have := integral_moment m s U hs hU 0
  simpa using this

theorem integral_density_pos (m s U : ℝ) (hs : 0 < s) (hU : 0 < U) : 0 < ∫ x in Ioo 0 U, density m s x := by
  rw [integral_density m s U hs hU]
  exact div_pos (one_add_erf_pos _) two_pos

/-- **C116.** `momentLogNormal` is the moment of the truncated distribution, whatever the mean, the sigma, the limit and the power: the integral of `x ^ r` times the log-normal
density up to the limit, divided by the integral of the density. -/
theorem moment_spec (m s U : ℝ) (hs : 0 < s) (hU : 0 < U) (r : ℕ) :
    momentLogNormal m s (log U) r = (∫ x in Ioo 0 U, x ^ r * density m s x) / ∫ x in Ioo 0 U, density m s x := by
  rw [integral_moment m s U hs hU r, integral_density m s U hs hU]
  unfold momentLogNormal
  have := one_add_erf_pos ((log U - m) / √2 / s)
  field_simp

/-- The total is 1. -/
example (m s U : ℝ) (hs : 0 < s) (hU : 0 < U) : momentLogNormal m s (log U) 0 = 1 := by
  rw [moment_spec m s U hs hU]
  simp [(integral_density_pos m s U hs hU).ne']

theorem logNormal_eq (x m s U : ℝ) (hx : ¬ x < m * 1e-6) (hxU : x < U) (hs : 0 < s) (hU : 0 < U) :
    logNormal x m s U = density m s x / ∫ y in Ioo 0 U, density m s y := by
  rw [integral_density m s U hs hU]
  unfold logNormal density
  rw [if_neg hx, if_neg (not_le.2 hxU)]
  simp only []
  have h2 : 0 < √(2 * π) := by positivity
  have e : -(log x - m) * (log x - m) / 2 / s / s = -(log x - m) ^ 2 / (2 * s ^ 2) := by field_simp
  rw [e]
  field_simp

/-- **C116, partial.** `logNormal` is the density of the truncated distribution, when the logarithmic mean is not positive. Missing for the full statement: positive ones (`logNormal_false`). -/
theorem logNormal_partial (m s U : ℝ) (hm : m ≤ 0) (hs : 0 < s) (hU : 0 < U) (x : ℝ) (hx : 0 < x) :
    logNormal x m s U = if x < U then density m s x / ∫ y in Ioo 0 U, density m s y else 0 := by
  have h1 : ¬ x < m * 1e-6 := by
    have : m * 1e-6 ≤ 0 := by
      have := mul_nonneg (neg_nonneg.2 hm) (by norm_num : (0 : ℝ) ≤ 1e-6)
      linarith
    linarith
  split
  · next h => exact logNormal_eq x m s U h1 h hs hU
  · next h =>
    unfold logNormal
    rw [if_neg h1, if_pos (not_lt.1 h)]

theorem density_nonneg (m s x : ℝ) (hs : 0 < s) (hx : 0 < x) : 0 < density m s x := by
  unfold density
  positivity

theorem integrableOn_density (m s U : ℝ) (hs : 0 < s) (hU : 0 < U) : IntegrableOn (density m s) (Ioo 0 U) := by
  by_contra h
  have := integral_density_pos m s U hs hU
  rw [integral_undef h] at this
  exact lt_irrefl _ this

/-- **The full C116 is false.** The comment says `logNormal` is correctly normalised; but it is 0 below a millionth of the logarithmic mean, "to avoid log(0)", so that whenever that
mean is positive its integral is less than 1; and with logarithmic mean 20 and limit 0.00001 it is 0 everywhere. -/
theorem logNormal_false : (∀ m s U : ℝ, 0 < m → 0 < s → 0 < U → ∫ x in Ioi 0, logNormal x m s U < 1) ∧ ∀ x, logNormal x 20 1 0.00001 = 0 := by
  constructor
  · intro m s U hm hs hU
    have hI := integral_density_pos m s U hs hU
    have hd := integrableOn_density m s U hs hU
    have hc : 0 < m * 1e-6 := by positivity
    -- the integral is the one of the density from the cut to the limit
    have e1 : ∫ x in Ioi 0, logNormal x m s U = ∫ x in Ico (m * 1e-6) U, density m s x / ∫ y in Ioo 0 U, density m s y := by
      rw [← integral_indicator measurableSet_Ioi, ← integral_indicator measurableSet_Ico]
      congr 1
      ext x
      by_cases h1 : x < m * 1e-6
      · rw [indicator_of_notMem (s := Ico _ _) (by simp [h1])]
        by_cases h0 : x ∈ Ioi (0 : ℝ)
        · rw [indicator_of_mem h0]; unfold logNormal; rw [if_pos h1]
        · rw [indicator_of_notMem h0]
      · have h0 : x ∈ Ioi (0 : ℝ) := by simp only [mem_Ioi]; linarith [not_lt.1 h1]
        rw [indicator_of_mem h0]
        by_cases h2 : x < U
        · rw [indicator_of_mem (s := Ico _ _) ⟨not_lt.1 h1, h2⟩]
          exact logNormal_eq x m s U h1 h2 hs hU
        · rw [indicator_of_notMem (s := Ico _ _) (by simp [h2])]
          unfold logNormal
          rw [if_neg h1, if_pos (not_lt.1 h2)]
    rw [e1, integral_div, div_lt_one hI]
    -- and the part below is not zero
    set k := min (m * 1e-6) U with hk
    have hk0 : 0 < k := lt_min hc hU
    have hsub : Ioo 0 k ∪ Ico (m * 1e-6) U ⊆ Ioo 0 U := by
      rintro x (⟨a, b⟩ | ⟨a, b⟩)
      · exact ⟨a, lt_of_lt_of_le b (min_le_right _ _)⟩
      · exact ⟨lt_of_lt_of_le hc a, b⟩
    have hdis : Disjoint (Ioo 0 k) (Ico (m * 1e-6) U) := by
      rw [Set.disjoint_left]
      rintro x ⟨_, b⟩ ⟨c, _⟩
      exact absurd (lt_of_lt_of_le b (min_le_left _ _)) (not_lt.2 c)
    have h3 := setIntegral_mono_set hd (by
      filter_upwards [self_mem_ae_restrict measurableSet_Ioo] with x hx
      exact (density_nonneg m s x hs hx.1).le) (LE.le.eventuallyLE hsub)
    rw [setIntegral_union hdis measurableSet_Ico (hd.mono_set (subset_union_left.trans hsub)) (hd.mono_set (subset_union_right.trans hsub))] at h3
    have := integral_density_pos m s k hs hk0
    linarith
  · intro x
    unfold logNormal
    by_cases h : x < 20 * 1e-6
    · rw [if_pos h]
    · rw [if_neg h, if_pos (by norm_num at h ⊢; linarith)]

end Verif.LogNormal
