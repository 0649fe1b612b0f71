import Mathlib.Analysis.SpecialFunctions.Gaussian.GaussianIntegral
import Mathlib.MeasureTheory.Integral.IntegralEqImproper
import Mathlib.MeasureTheory.Integral.IntervalIntegral.FundThmCalculus
import Mathlib.Topology.Order.MonotoneConvergence
import Mathlib.Analysis.Calculus.MeanValue
import Mathlib.Analysis.Real.Pi.Bounds

/-!
# The loop of `inverseErf` in real arithmetic

The loop of `/repo/src/MathSpecialFunctions.cpp:41-48` with real numbers and the real error function. The guess (lines 30-32) is a parameter.
-/

namespace Verif.MathFn
open MeasureTheory Real Filter Topology Set

/-- The error function. -/
noncomputable def erfR (x : ℝ) : ℝ := 2 / √π * ∫ t in (0 : ℝ)..x, rexp (-t ^ 2)

/-- The constant of line 42. -/
noncomputable def newtonConst : ℝ := 0.886226925452758

/-- Line 42. -/
noncomputable def newtonStep (y x : ℝ) : ℝ := x + (y - erfR x) * rexp (x * x) * newtonConst

open Classical in
/-- Lines 41-48; `none` when the loop has not ended after `fuel` rounds. -/
noncomputable def newtonLoop (y : ℝ) : Nat → ℝ → Option ℝ
  | 0, _ => none
  | fuel + 1, x =>
    let x' := newtonStep y x
    if erfR x' > y * 1.00000000000001 ∨ erfR x' < y * 0.99999999999999 then newtonLoop y fuel x' else some x'

theorem gauss_continuous : Continuous fun t : ℝ => rexp (-t ^ 2) := by fun_prop

theorem erfR_hasDerivAt (x : ℝ) : HasDerivAt erfR (2 / √π * rexp (-x ^ 2)) x := by
  unfold erfR
  exact (intervalIntegral.integral_hasDerivAt_right (gauss_continuous.intervalIntegrable _ _)
    (gauss_continuous.stronglyMeasurableAtFilter _ _) gauss_continuous.continuousAt).const_mul _

theorem sqrtpi_pos : 0 < √π := Real.sqrt_pos.2 Real.pi_pos

theorem erfR_continuous : Continuous erfR := continuous_iff_continuousAt.2 fun x => (erfR_hasDerivAt x).continuousAt

theorem erfR_strictMono : StrictMono erfR := by
  apply strictMono_of_deriv_pos
  intro x
  rw [(erfR_hasDerivAt x).deriv]
  have := sqrtpi_pos
  positivity

theorem erfR_zero : erfR 0 = 0 := by simp [erfR]

theorem erfR_tendsto : Tendsto erfR atTop (𝓝 1) := by
  have hint : Integrable fun t : ℝ => rexp (-1 * t ^ 2) := integrable_exp_neg_mul_sq one_pos
  have h1 : ∫ t in Ioi (0 : ℝ), rexp (-t ^ 2) = √π / 2 := by
    have := integral_gaussian_Ioi 1
    simpa using this
  have h2 : Tendsto (fun x : ℝ => ∫ t in (0 : ℝ)..x, rexp (-t ^ 2)) atTop (𝓝 (∫ t in Ioi (0 : ℝ), rexp (-t ^ 2))) :=
    intervalIntegral_tendsto_integral_Ioi 0 (by simpa using hint.integrableOn) tendsto_id
  rw [h1] at h2
  have h3 := h2.const_mul (2 / √π)
  have h4 : 2 / √π * (√π / 2) = 1 := by
    have := sqrtpi_pos.ne'
    field_simp
  rw [h4] at h3
  exact h3

/-- Every number between 0 and 1 is a value. -/
theorem erfR_root {y : ℝ} (h0 : 0 < y) (h1 : y < 1) : ∃ r, 0 < r ∧ erfR r = y := by
  obtain ⟨b, hb⟩ := (erfR_tendsto.eventually (lt_mem_nhds h1)).exists
  have hb0 : 0 < b := by
    by_contra hn
    have := erfR_strictMono.monotone (not_lt.1 hn)
    rw [erfR_zero] at this
    linarith
  obtain ⟨r, hr, he⟩ := intermediate_value_Icc hb0.le erfR_continuous.continuousOn (show y ∈ Icc (erfR 0) (erfR b) from ⟨by rw [erfR_zero]; exact h0.le, hb.le⟩)
  refine ⟨r, ?_, he⟩
  rcases hr.1.eq_or_lt with h | h
  · rw [← h, erfR_zero] at he; linarith
  · exact h

/-- The constant is below `√π / 2`. -/
theorem newtonConst_bounds : 0 < newtonConst ∧ newtonConst * (2 / √π) ≤ 1 := by
  have hp := Real.pi_gt_d20
  refine ⟨by norm_num [newtonConst], ?_⟩
  have h : newtonConst * 2 ≤ √π := by
    apply Real.le_sqrt_of_sq_le
    unfold newtonConst
    norm_num at hp ⊢
    linarith
  have := sqrtpi_pos
  rw [mul_div_assoc', div_le_one this]
  exact h

/-- Concavity to the right of 0: between two points the error function grows at most like its tangent at the first. -/
theorem erfR_tangent {a b : ℝ} (ha : 0 ≤ a) (hab : a ≤ b) : erfR b - erfR a ≤ (b - a) * (2 / √π * rexp (-a ^ 2)) := by
  rcases hab.eq_or_lt with rfl | h
  · simp
  · obtain ⟨c, hc, he⟩ := exists_hasDerivAt_eq_slope erfR (fun x => 2 / √π * rexp (-x ^ 2)) h erfR_continuous.continuousOn (fun x _ => erfR_hasDerivAt x)
    have hba : 0 < b - a := by linarith
    have h2 : erfR b - erfR a = (b - a) * (2 / √π * rexp (-c ^ 2)) := by
      rw [he]; field_simp
    rw [h2]
    have h3 : rexp (-c ^ 2) ≤ rexp (-a ^ 2) := Real.exp_le_exp.2 (by nlinarith [hc.1])
    have := sqrtpi_pos
    gcongr

theorem erfR_tangent_ge {a b : ℝ} (ha : 0 ≤ a) (hab : a ≤ b) : (b - a) * (2 / √π * rexp (-b ^ 2)) ≤ erfR b - erfR a := by
  rcases hab.eq_or_lt with rfl | h
  · simp
  · obtain ⟨c, hc, he⟩ := exists_hasDerivAt_eq_slope erfR (fun x => 2 / √π * rexp (-x ^ 2)) h erfR_continuous.continuousOn (fun x _ => erfR_hasDerivAt x)
    have hba : 0 < b - a := by linarith
    have h2 : erfR b - erfR a = (b - a) * (2 / √π * rexp (-c ^ 2)) := by
      rw [he]; field_simp
    rw [h2]
    have h3 : rexp (-b ^ 2) ≤ rexp (-c ^ 2) := Real.exp_le_exp.2 (by nlinarith [hc.1, hc.2])
    have := sqrtpi_pos
    gcongr

/-- To the left of the solution, a step goes right and not beyond it. -/
theorem newtonStep_left {y r x : ℝ} (hr : erfR r = y) (h0 : 0 ≤ x) (hx : x ≤ r) : x ≤ newtonStep y x ∧ newtonStep y x ≤ r := by
  obtain ⟨c1, c2⟩ := newtonConst_bounds
  have hm := erfR_strictMono.monotone hx
  have ht := erfR_tangent h0 hx
  rw [hr] at hm ht
  unfold newtonStep
  have he : rexp (-x ^ 2) * rexp (x * x) = 1 := by rw [← Real.exp_add]; simp [sq]
  have hpos : 0 ≤ rexp (x * x) * newtonConst := by positivity
  constructor
  · have : 0 ≤ (y - erfR x) * (rexp (x * x) * newtonConst) := mul_nonneg (by linarith) hpos
    rw [mul_assoc]; linarith
  · have h1 := mul_le_mul_of_nonneg_right ht hpos
    have h2 : (r - x) * (2 / √π * rexp (-x ^ 2)) * (rexp (x * x) * newtonConst) = (r - x) * (newtonConst * (2 / √π)) * (rexp (-x ^ 2) * rexp (x * x)) := by ring
    rw [h2, he, mul_one] at h1
    have h3 := mul_le_mul_of_nonneg_left c2 (show 0 ≤ r - x by linarith)
    rw [mul_assoc]; linarith

/-- From the right, a step goes left of the solution, or stays right of it but comes closer; it does not pass 0 if the start is close enough. -/
theorem newtonStep_right {y r x : ℝ} (hr : erfR r = y) (h0 : 0 < r) (hx : r ≤ x) (hn : (x - r) * (rexp (x ^ 2 - r ^ 2) - 1) ≤ r) : 0 ≤ newtonStep y x ∧ newtonStep y x ≤ x := by
  obtain ⟨c1, c2⟩ := newtonConst_bounds
  have hm := erfR_strictMono.monotone hx
  have ht := erfR_tangent h0.le hx
  rw [hr] at hm ht
  unfold newtonStep
  have hpos : 0 ≤ rexp (x * x) * newtonConst := by positivity
  constructor
  · have h1 := mul_le_mul_of_nonneg_right ht hpos
    have he : rexp (-r ^ 2) * rexp (x * x) = rexp (x ^ 2 - r ^ 2) := by rw [← Real.exp_add]; congr 1; ring
    have h2 : (x - r) * (2 / √π * rexp (-r ^ 2)) * (rexp (x * x) * newtonConst) = (x - r) * (newtonConst * (2 / √π)) * (rexp (-r ^ 2) * rexp (x * x)) := by ring
    rw [h2, he] at h1
    have h3 : (x - r) * (newtonConst * (2 / √π)) * rexp (x ^ 2 - r ^ 2) ≤ (x - r) * 1 * rexp (x ^ 2 - r ^ 2) := by
      have : 0 ≤ x - r := by linarith
      gcongr
    rw [mul_assoc]
    linarith
  · have : 0 ≤ (erfR x - y) * (rexp (x * x) * newtonConst) := mul_nonneg (by linarith) hpos
    rw [mul_assoc]; linarith

noncomputable def iter (y x : ℝ) : Nat → ℝ
  | 0 => x
  | n + 1 => newtonStep y (iter y x n)

theorem newtonLoop_iter {y : ℝ} : ∀ (n : Nat) (x : ℝ), ¬ (erfR (iter y x (n + 1)) > y * 1.00000000000001 ∨ erfR (iter y x (n + 1)) < y * 0.99999999999999) → (newtonLoop y (n + 1) x).isSome := by
  intro n
  induction n with
  | zero =>
    intro x h
    simp only [iter] at h
    simp only [newtonLoop]
    rw [if_neg h]; rfl
  | succ n ih =>
    intro x h
    have hshift : ∀ m, iter y x (m + 1) = iter y (newtonStep y x) m := by
      intro m
      induction m with
      | zero => rfl
      | succ m ihm => show newtonStep y (iter y x (m + 1)) = newtonStep y (iter y (newtonStep y x) m); rw [ihm]
    rw [newtonLoop]
    split
    · apply ih
      rw [← hshift]
      exact h
    · rfl

/-- Left of the solution the iterates converge to it. -/
theorem iter_tendsto {y r x : ℝ} (hr : erfR r = y) (h0 : 0 ≤ x) (hx : x ≤ r) : Tendsto (iter y x) atTop (𝓝 r) := by
  have hin : ∀ n, 0 ≤ iter y x n ∧ iter y x n ≤ r := by
    intro n
    induction n with
    | zero => exact ⟨h0, hx⟩
    | succ n ih =>
      have := newtonStep_left hr ih.1 ih.2
      exact ⟨ih.1.trans this.1, this.2⟩
  have hmono : Monotone (iter y x) := monotone_nat_of_le_succ fun n => (newtonStep_left hr (hin n).1 (hin n).2).1
  obtain ⟨l, hl⟩ : ∃ l, Tendsto (iter y x) atTop (𝓝 l) := ⟨_, tendsto_atTop_ciSup hmono ⟨r, by rintro _ ⟨n, rfl⟩; exact (hin n).2⟩⟩
  have hc : Continuous (newtonStep y) := by
    unfold newtonStep
    have := erfR_continuous
    fun_prop
  have h1 : Tendsto (fun n => iter y x (n + 1)) atTop (𝓝 l) := hl.comp (tendsto_add_atTop_nat 1)
  have h2 : Tendsto (fun n => iter y x (n + 1)) atTop (𝓝 (newtonStep y l)) := (hc.tendsto l).comp hl
  have h3 := tendsto_nhds_unique h1 h2
  unfold newtonStep at h3
  have h4 : (y - erfR l) * rexp (l * l) * newtonConst = 0 := by linarith
  have h5 : y = erfR l := by
    have hp := newtonConst_bounds.1.ne'
    have he := (Real.exp_pos (l * l)).ne'
    simp only [mul_eq_zero, hp, he, or_false] at h4
    linarith
  have h6 : l = r := erfR_strictMono.injective (by rw [hr, ← h5])
  rw [← h6]
  exact hl

theorem loop_ends {y r x : ℝ} (hy : 0 < y) (hr : erfR r = y) (hi : Tendsto (iter y x) atTop (𝓝 r)) : ∃ fuel, (newtonLoop y fuel x).isSome := by
  have ht := (erfR_continuous.tendsto r).comp hi
  rw [hr] at ht
  have h1 := ht.eventually (lt_mem_nhds (show y * 0.99999999999999 < y by norm_num; linarith))
  have h2 := ht.eventually (gt_mem_nhds (show y < y * 1.00000000000001 by norm_num; linarith))
  obtain ⟨n, hn⟩ := (h1.and h2).exists_forall_of_atTop
  refine ⟨n + 1, newtonLoop_iter n x ?_⟩
  have := hn (n + 1) (by omega)
  simp only [Function.comp] at this
  push Not
  exact ⟨this.2.le, this.1.le⟩

theorem iter_add (y x : ℝ) (n m : Nat) : iter y x (n + m) = iter y (iter y x n) m := by
  induction m with
  | zero => rfl
  | succ m ih => show newtonStep y (iter y x (n + m)) = _; rw [ih]; rfl

/-- A limit of the iterates is the solution. -/
theorem iter_limit {y r l x : ℝ} (hr : erfR r = y) (hl : Tendsto (iter y x) atTop (𝓝 l)) : l = r := by
  have hc : Continuous (newtonStep y) := by
    unfold newtonStep
    have := erfR_continuous
    fun_prop
  have h1 : Tendsto (fun n => iter y x (n + 1)) atTop (𝓝 l) := hl.comp (tendsto_add_atTop_nat 1)
  have h2 : Tendsto (fun n => iter y x (n + 1)) atTop (𝓝 (newtonStep y l)) := (hc.tendsto l).comp hl
  have h3 := tendsto_nhds_unique h1 h2
  unfold newtonStep at h3
  have h4 : (y - erfR l) * rexp (l * l) * newtonConst = 0 := by linarith
  have h5 : y = erfR l := by
    have hp := newtonConst_bounds.1.ne'
    have he := (Real.exp_pos (l * l)).ne'
    simp only [mul_eq_zero, hp, he, or_false] at h4
    linarith
  exact erfR_strictMono.injective (by rw [hr, ← h5])

/-- Right of the solution, but close to it. -/
theorem iter_tendsto_right {y r x : ℝ} (hr : erfR r = y) (h0 : 0 < r) (hx : r ≤ x) (hn : (x - r) * (rexp (x ^ 2 - r ^ 2) - 1) ≤ r) : Tendsto (iter y x) atTop (𝓝 r) := by
  have near : ∀ z, r ≤ z → z ≤ x → (z - r) * (rexp (z ^ 2 - r ^ 2) - 1) ≤ r := by
    intro z hz1 hz2
    have e1 : rexp (z ^ 2 - r ^ 2) ≤ rexp (x ^ 2 - r ^ 2) := Real.exp_le_exp.2 (by nlinarith)
    have e0 : 1 ≤ rexp (z ^ 2 - r ^ 2) := Real.one_le_exp (by nlinarith)
    have : (z - r) * (rexp (z ^ 2 - r ^ 2) - 1) ≤ (x - r) * (rexp (x ^ 2 - r ^ 2) - 1) := by
      apply mul_le_mul <;> linarith
    linarith
  by_cases hall : ∀ n, r < iter y x n
  · have hin : ∀ n, iter y x n ≤ x := by
      intro n
      induction n with
      | zero => exact le_refl _
      | succ n ih => exact (newtonStep_right hr h0 (hall n).le (near _ (hall n).le ih)).2.trans ih
    have hanti : Antitone (iter y x) := antitone_nat_of_succ_le fun n => (newtonStep_right hr h0 (hall n).le (near _ (hall n).le (hin n))).2
    obtain ⟨l, hl⟩ : ∃ l, Tendsto (iter y x) atTop (𝓝 l) := ⟨_, tendsto_atTop_ciInf hanti ⟨r, by rintro _ ⟨n, rfl⟩; exact (hall n).le⟩⟩
    rw [← iter_limit hr hl]
    exact hl
  · push Not at hall
    classical
    have hfind := Nat.find_spec hall
    have hmin := fun m hm => Nat.find_min hall (m := m) hm
    generalize Nat.find hall = n at hfind hmin
    have hin : ∀ m ≤ n, (m < n → iter y x m ≤ x) ∧ 0 ≤ iter y x m := by
      intro m
      induction m with
      | zero => intro _; exact ⟨fun _ => le_refl _, by show 0 ≤ x; linarith⟩
      | succ m ih =>
        intro hm
        have hlt : m < n := by omega
        have h1 := not_le.1 (hmin m hlt)
        have h2 := newtonStep_right hr h0 h1.le (near _ h1.le ((ih hlt.le).1 hlt))
        exact ⟨fun _ => h2.2.trans ((ih hlt.le).1 hlt), h2.1⟩
    have ht := iter_tendsto hr (hin n le_rfl).2 hfind
    rw [← tendsto_add_atTop_iff_nat n]
    refine ht.congr fun m => ?_
    rw [← iter_add, add_comm]

theorem newtonLoop_fuel {y : ℝ} {fuel : Nat} {x r : ℝ} (h : newtonLoop y fuel x = some r) : ¬ (erfR r > y * 1.00000000000001 ∨ erfR r < y * 0.99999999999999) := by
  induction fuel generalizing x with
  | zero => cases h
  | succ n ih =>
    simp only [newtonLoop] at h
    split at h
    · exact ih h
    · next hc => cases h; exact hc

end Verif.MathFn
