import Verif.MathFn.Newton

/-! # C100: the loop of `inverseErf` ends -/

namespace Verif.MathFn
open Real

/-- **C100.** In real arithmetic, for every argument between 0 and 1 there is exactly one solution, and the loop finds it to a relative error of `1e-14` from every guess between 0 and the solution, and from every guess above it that is
close enough that a step does not pass 0. (What is missing: rounding, and how good the guess of lines 30-32 is; from 0 the loop would always end.) -/
theorem newton_ends_partial (y : ℝ) (h0 : 0 < y) (h1 : y < 1) : ∃ r, 0 < r ∧ erfR r = y ∧ (∀ r', erfR r' = y → r' = r) ∧
    ∀ x, 0 ≤ x → (x ≤ r ∨ (x - r) * (rexp (x ^ 2 - r ^ 2) - 1) ≤ r) → ∃ fuel x', newtonLoop y fuel x = some x' ∧ |erfR x' - y| ≤ y * 1e-14 := by
  obtain ⟨r, hr0, hr⟩ := erfR_root h0 h1
  refine ⟨r, hr0, hr, fun r' h => erfR_strictMono.injective (by rw [h, hr]), ?_⟩
  intro x hx hc
  have hends : ∃ fuel, (newtonLoop y fuel x).isSome := by
    rcases le_total x r with h | h
    · exact loop_ends h0 hr (iter_tendsto hr hx h)
    · rcases hc with hc | hc
      · exact loop_ends h0 hr (iter_tendsto hr hx hc)
      · exact loop_ends h0 hr (iter_tendsto_right hr hr0 h hc)
  obtain ⟨fuel, hf⟩ := hends
  obtain ⟨x', hx'⟩ := Option.isSome_iff_exists.1 hf
  refine ⟨fuel, x', hx', ?_⟩
  have := newtonLoop_fuel hx'
  push Not at this
  obtain ⟨a, b⟩ := this
  rw [abs_le]
  norm_num at a b ⊢
  constructor <;> linarith

/-- **C100.** So a guess within a thousandth is good enough for solutions between a thousandth and a hundred (the formula of the guess is said to be right to `4.5e-4`; the error function is 1 in doubles from 6 on). -/
theorem newton_ends_near_partial (y r x : ℝ) (hr : erfR r = y) (h1 : 1 / 1000 ≤ r) (h2 : r ≤ 100) (hx : |x - r| ≤ 1 / 1000) :
    ∃ fuel x', newtonLoop y fuel x = some x' ∧ |erfR x' - y| ≤ y * 1e-14 := by
  have hy0 : 0 < y := by
    rw [← hr, ← erfR_zero]
    exact erfR_strictMono (by linarith)
  have hy1 : y < 1 := by
    rw [← hr]
    exact lt_of_lt_of_le (erfR_strictMono (show r < r + 1 by linarith)) (erfR_strictMono.monotone.ge_of_tendsto erfR_tendsto _)
  obtain ⟨r', hr0, hr', huniq, hall⟩ := newton_ends_partial y hy0 hy1
  have := huniq r hr
  subst this
  have hx' := abs_le.1 hx
  apply hall x (by linarith)
  rcases le_total x r with h | h
  · exact .inl h
  · right
    set d := x - r with hd
    have hu : x ^ 2 - r ^ 2 = d * (2 * r + d) := by rw [hd]; ring
    have hd0 : 0 ≤ d := by linarith
    have hu1 : x ^ 2 - r ^ 2 ≤ 1 / 2 := by rw [hu]; nlinarith
    have hu0 : 0 ≤ x ^ 2 - r ^ 2 := by rw [hu]; positivity
    have he : rexp (x ^ 2 - r ^ 2) - 1 ≤ 2 * (x ^ 2 - r ^ 2) := by
      have := Real.abs_exp_sub_one_le (x := x ^ 2 - r ^ 2) (by rw [abs_of_nonneg hu0]; linarith)
      rw [abs_of_nonneg hu0] at this
      exact (le_abs_self _).trans this
    have h3 : d * (rexp (x ^ 2 - r ^ 2) - 1) ≤ d * (2 * (x ^ 2 - r ^ 2)) := mul_le_mul_of_nonneg_left he hd0
    rw [hu] at h3
    have h4 : d * (2 * (d * (2 * r + d))) ≤ 1 / 1000 * (2 * (1 / 1000 * (2 * r + 1 / 1000))) := by gcongr <;> linarith
    rw [hu] at *
    linarith

/-- From 0 the loop ends for every argument, for instance one half. -/
example : ∃ fuel x', newtonLoop (1 / 2) fuel 0 = some x' ∧ |erfR x' - 1 / 2| ≤ 1 / 2 * 1e-14 := by
  obtain ⟨r, h0, _, _, h⟩ := newton_ends_partial (1 / 2) (by norm_num) (by norm_num)
  exact h 0 le_rfl (.inl h0.le)

end Verif.MathFn
