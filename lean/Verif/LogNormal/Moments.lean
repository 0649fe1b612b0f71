import Mathlib.MeasureTheory.Function.JacobianOneDim
import Verif.LogNormal.Model

/-! # The moments of the truncated log-normal distribution: lemmas -/

namespace Verif.LogNormal
open Real MeasureTheory Set

theorem integrable_exp_sq : Integrable fun t : ℝ => exp (-t ^ 2) := by
  have := integrable_exp_neg_mul_sq (b := 1) one_pos
  simpa using this

theorem integral_Iic_zero : ∫ t in Iic (0 : ℝ), exp (-t ^ 2) = √π / 2 := by
  have h := integral_gaussian_Ioi 1
  have h2 := integral_comp_neg_Ioi (0 : ℝ) fun t => exp (-t ^ 2)
  simp only [neg_zero, neg_sq] at h2
  rw [← h2]
  simpa using h

/-- The Gaussian integral up to a bound is what `erf` says. -/
theorem integral_Iic_exp_sq (c : ℝ) : ∫ t in Iic c, exp (-t ^ 2) = √π / 2 * (1 + erf c) := by
  have h := intervalIntegral.integral_Iic_sub_Iic (a := 0) (b := c) (f := fun t : ℝ => exp (-t ^ 2)) integrable_exp_sq.integrableOn integrable_exp_sq.integrableOn
  rw [integral_Iic_zero] at h
  have hp : √π ≠ 0 := (sqrt_pos.2 pi_pos).ne'
  unfold erf
  rw [← h]
  field_simp
  ring

theorem one_add_erf_pos (c : ℝ) : 0 < 1 + erf c := by
  have h := integral_Iic_exp_sq c
  have hp : 0 < √π := sqrt_pos.2 pi_pos
  have : 0 < ∫ t in Iic c, exp (-t ^ 2) := by
    rw [setIntegral_pos_iff_support_of_nonneg_ae (Filter.Eventually.of_forall fun t => (exp_pos _).le) integrable_exp_sq.integrableOn]
    have : (Function.support fun t : ℝ => exp (-t ^ 2)) = univ := by
      ext t; simp [(exp_pos _).ne']
    rw [this, univ_inter]
    simp
  rw [h] at this
  have h2 : 0 < √π / 2 := by positivity
  exact (pos_iff_pos_of_mul_pos this).1 h2

/-- A Gaussian with any mean and width, up to a bound. -/
theorem integral_Iio_gauss (b mu s : ℝ) (hs : 0 < s) :
    ∫ y in Iio b, exp (-(y - mu) ^ 2 / (2 * s ^ 2)) = √2 * s * (√π / 2 * (1 + erf ((b - mu) / √2 / s))) := by
  have h2 : 0 < √2 := by positivity
  have himg : (fun t : ℝ => mu + √2 * s * t) '' Iio ((b - mu) / √2 / s) = Iio b := by
    ext y
    simp only [mem_image, mem_Iio]
    constructor
    · rintro ⟨t, ht, rfl⟩
      rw [div_div, lt_div_iff₀ (by positivity)] at ht
      linarith
    · intro hy
      refine ⟨(y - mu) / √2 / s, ?_, ?_⟩
      · apply div_lt_div_of_pos_right _ hs
        apply div_lt_div_of_pos_right _ h2
        linarith
      · field_simp; ring
  rw [← himg, integral_image_eq_integral_abs_deriv_smul (f' := fun _ => √2 * s) measurableSet_Iio]
  · rw [← integral_Iic_exp_sq, integral_Iic_eq_integral_Iio, ← integral_const_mul]
    apply setIntegral_congr_fun measurableSet_Iio
    intro t _
    simp only [smul_eq_mul]
    rw [abs_of_pos (by positivity)]
    congr 2
    have : √2 ^ 2 = 2 := sq_sqrt (by norm_num)
    field_simp
    ring_nf
    rw [this]
    ring
  · intro t _
    have := ((hasDerivAt_id t).const_mul (√2 * s)).const_add mu
    simpa using this.hasDerivWithinAt
  · intro x _ y _ h
    simpa [h2.ne', hs.ne'] using h

/-- The density of the log-normal distribution. -/
noncomputable def density (m s x : ℝ) : ℝ := exp (-(log x - m) ^ 2 / (2 * s ^ 2)) / (x * s * √(2 * π))

theorem integral_moment (m s U : ℝ) (hs : 0 < s) (hU : 0 < U) (r : ℕ) :
    ∫ x in Ioo 0 U, x ^ r * density m s x =
      exp (r * m + r * r * s * s / 2) * (1 + erf ((log U - m - r * s * s) / √2 / s)) / 2 := by
  have himg : exp '' Iio (log U) = Ioo 0 U := by
    ext x
    simp only [mem_image, mem_Iio, mem_Ioo]
    constructor
    · rintro ⟨y, hy, rfl⟩
      exact ⟨exp_pos _, by rwa [← lt_log_iff_exp_lt hU]⟩
    · rintro ⟨h0, h1⟩
      exact ⟨log x, log_lt_log h0 h1, exp_log h0⟩
  rw [← himg, integral_image_eq_integral_abs_deriv_smul (f' := exp) measurableSet_Iio]
  · have h2 : 0 < √2 := by positivity
    have hp : 0 < √π := sqrt_pos.2 pi_pos
    have e : ∀ y : ℝ, |exp y| • (exp y ^ r * density m s (exp y)) =
        exp (r * m + r * r * s * s / 2) / (s * (√2 * √π)) * exp (-(y - (m + r * s * s)) ^ 2 / (2 * s ^ 2)) := by
      intro y
      rw [abs_of_pos (exp_pos _), smul_eq_mul]
      unfold density
      rw [log_exp, sqrt_mul (by norm_num), ← exp_nat_mul]
      have hx : exp y ≠ 0 := (exp_pos _).ne'
      have : exp (r * m + r * r * s * s / 2) * exp (-(y - (m + r * s * s)) ^ 2 / (2 * s ^ 2)) = exp (r * y) * exp (-(y - m) ^ 2 / (2 * s ^ 2)) := by
        rw [← exp_add, ← exp_add]
        congr 1
        field_simp
        ring
      rw [div_mul_eq_mul_div, this]
      field_simp
    rw [setIntegral_congr_fun measurableSet_Iio (fun y _ => e y), integral_const_mul, integral_Iio_gauss _ _ _ hs]
    rw [show log U - (m + r * s * s) = log U - m - r * s * s by ring]
    field_simp
  · intro x _
    exact (hasDerivAt_exp x).hasDerivWithinAt
  · exact exp_injective.injOn

end Verif.LogNormal
