import Verif.LogHisto.Model
import Mathlib.Tactic.Linarith
import Mathlib.Tactic.Positivity
import Mathlib.Tactic.FieldSimp
import Mathlib.Tactic.Ring
import Mathlib.Tactic.NormNum

/-! # Logarithmic histograms with rounding -/

namespace Verif.LogHisto

open Verif Histo

/-- An arithmetic whose operations are right up to a half of the last bit of a double, with a logarithm right up to the last bit. -/
structure Close (A : Ar) : Prop where
  err : ∀ x, |A.r x - x| ≤ |x| / 2 ^ 53
  one : ∀ x, 1 ≤ x → 1 ≤ A.r x
  lg : ∀ x, 0 < x → |A.lg x - Real.log x| ≤ |Real.log x| / 2 ^ 52

theorem exact_close : Close exact := by
  refine ⟨fun x => ?_, fun x h => h, fun x _ => ?_⟩
  · show |x - x| ≤ _
    rw [sub_self, abs_zero]; positivity
  · show |Real.log x - Real.log x| ≤ _
    rw [sub_self, abs_zero]; positivity

/-- The logarithm of a rounded quotient. -/
theorem lg_quot {A : Ar} (hA : Close A) {y : ℝ} (hy : 1 < y) : 0 ≤ A.lg (A.r y) ∧ |A.lg (A.r y) - Real.log y| ≤ 2 / 2 ^ 53 * Real.log y + 5 / 2 ^ 54 := by
  have hy0 : (0 : ℝ) < y := by linarith
  have he := hA.err y
  have h1 := hA.one y (le_of_lt hy)
  have hl : 0 ≤ Real.log y := Real.log_nonneg (le_of_lt hy)
  set Y := A.r y with hY
  have hY0 : 0 < Y := by linarith
  rw [abs_of_pos hy0] at he
  obtain ⟨ea, eb⟩ := abs_le.1 he
  have hdiv : Real.log Y - Real.log y = Real.log (Y / y) := (Real.log_div (ne_of_gt hY0) (ne_of_gt hy0)).symm
  have hup : Real.log (Y / y) ≤ 1 / 2 ^ 53 := by
    have := Real.log_le_sub_one_of_pos (div_pos hY0 hy0)
    have h2 : Y / y ≤ 1 + 1 / 2 ^ 53 := by
      rw [div_le_iff₀ hy0]; linarith
    linarith
  have hdn : -(1001 / 1000 / 2 ^ 53) ≤ Real.log (Y / y) := by
    have := Real.log_le_sub_one_of_pos (div_pos hy0 hY0)
    have e : Real.log (Y / y) = -Real.log (y / Y) := by rw [← Real.log_inv, inv_div]
    have h2 : y / Y ≤ 1 + 1001 / 1000 / 2 ^ 53 := by
      rw [div_le_iff₀ hY0]
      have : y * (1 - 1 / 2 ^ 53) ≤ Y := by linarith
      have h3 := mul_le_mul_of_nonneg_left this (show (0 : ℝ) ≤ 1 + 1001 / 1000 / 2 ^ 53 by norm_num)
      have h4 : y ≤ (1 + 1001 / 1000 / 2 ^ 53) * (y * (1 - 1 / 2 ^ 53)) := by
        have : (1 : ℝ) ≤ (1 + 1001 / 1000 / 2 ^ 53) * (1 - 1 / 2 ^ 53) := by norm_num
        nlinarith
      linarith
    linarith
  have hlY : 0 ≤ Real.log Y := Real.log_nonneg h1
  have hg := hA.lg Y hY0
  rw [abs_of_nonneg hlY] at hg
  obtain ⟨ga, gb⟩ := abs_le.1 hg
  refine ⟨by linarith, ?_⟩
  rw [abs_le]
  have hb : Real.log Y ≤ Real.log y + 1 / 2 ^ 53 := by linarith
  have ha : Real.log y - 1001 / 1000 / 2 ^ 53 ≤ Real.log Y := by linarith
  constructor <;> norm_num at * <;> linarith

/-- How far the computed bin number may be off, in bins: `t` is the exact one, `L` the logarithm of the ratio of the bounds. -/
noncomputable def slack (n : Nat) (L t : ℝ) : ℝ := (|t| + (n + |t|) / L) / 2 ^ 50

theorem index_near {A : Ar} (hA : Close A) {n : Nat} {small high x : ℝ} (hs : 0 < small) (hx : small < x) (hL : 1 / 2 ^ 30 ≤ Real.log (high / small)) (hh : small < high) :
    let L := Real.log (high / small)
    let t := n * Real.log (x / small) / L
    let q := A.r (A.r (n / A.lg (A.r (high / small))) * A.lg (A.r (x / small)))
    0 ≤ q ∧ |q - t| ≤ slack n L t := by
  intro L t q
  have hn : (0 : ℝ) ≤ n := Nat.cast_nonneg n
  have hy : 1 < x / small := by rw [one_lt_div hs]; exact hx
  have hr : 1 < high / small := by rw [one_lt_div hs]; exact hh
  obtain ⟨a0, ae⟩ := lg_quot hA hy
  obtain ⟨m0, me⟩ := lg_quot hA hr
  have hl : 0 < Real.log (x / small) := Real.log_pos hy
  have hL0 : 0 < L := Real.log_pos hr
  have hL' : 1 / 2 ^ 30 ≤ L := hL
  change |A.lg (A.r (high / small)) - L| ≤ 2 / 2 ^ 53 * L + 5 / 2 ^ 54 at me
  have ht : t * L = n * Real.log (x / small) := div_mul_cancel₀ _ (ne_of_gt hL0)
  set l := Real.log (x / small)
  set a := A.lg (A.r (x / small))
  set M := A.lg (A.r (high / small))
  obtain ⟨a1, a2⟩ := abs_le.1 ae
  obtain ⟨m1, m2⟩ := abs_le.1 me
  have hM : L * (1 - 1 / 2 ^ 20) ≤ M := by
    have : (5 : ℝ) / 2 ^ 54 ≤ 1 / 2 ^ 21 * L := by
      have := mul_le_mul_of_nonneg_left hL' (show (0 : ℝ) ≤ 1 / 2 ^ 21 by norm_num)
      norm_num at this ⊢; linarith
    norm_num at *; linarith
  have hM0 : 0 < M := lt_of_lt_of_le (mul_pos hL0 (by norm_num)) hM
  -- the scale
  have hnM : 0 ≤ (n : ℝ) / M := div_nonneg hn (le_of_lt hM0)
  have se := hA.err (n / M)
  rw [abs_of_nonneg hnM] at se
  obtain ⟨s1, s2⟩ := abs_le.1 se
  set s := A.r (n / M)
  have hs0 : 0 ≤ s := by
    have : (n : ℝ) / M * (1 - 1 / 2 ^ 53) ≤ s := by linarith
    exact le_trans (mul_nonneg hnM (by norm_num)) this
  have hsa : 0 ≤ s * a := mul_nonneg hs0 a0
  have qe := hA.err (s * a)
  rw [abs_of_nonneg hsa] at qe
  obtain ⟨q1, q2⟩ := abs_le.1 qe
  change -(s * a / 2 ^ 53) ≤ q - s * a at q1
  change q - s * a ≤ s * a / 2 ^ 53 at q2
  have hq0 : 0 ≤ q := by
    have : s * a * (1 - 1 / 2 ^ 53) ≤ q := by linarith
    exact le_trans (mul_nonneg hsa (by norm_num)) this
  refine ⟨hq0, ?_⟩
  -- everything in units of n / M
  set w := (n : ℝ) / M with hw
  have hwM : w * M = n := div_mul_cancel₀ _ (ne_of_gt hM0)
  have hwL : w * (L * (1 - 1 / 2 ^ 20)) ≤ n := by rw [← hwM]; exact mul_le_mul_of_nonneg_left hM hnM
  have ht0 : 0 ≤ t := div_nonneg (mul_nonneg hn (le_of_lt hl)) (le_of_lt hL0)
  -- q against w * a
  have hwa : 0 ≤ w * a := mul_nonneg hnM a0
  have h1 : s * a ≤ w * a * (1 + 1 / 2 ^ 53) := by
    have : s ≤ w * (1 + 1 / 2 ^ 53) := by linarith
    have := mul_le_mul_of_nonneg_right this a0
    linarith
  have h2 : w * a * (1 - 1 / 2 ^ 53) ≤ s * a := by
    have : w * (1 - 1 / 2 ^ 53) ≤ s := by linarith
    have := mul_le_mul_of_nonneg_right this a0
    linarith
  have hqw : |q - w * a| ≤ w * a * (3 / 2 ^ 53) := by
    rw [abs_le]
    constructor <;> norm_num at * <;> linarith
  -- w * a against t
  have htw : |w * a - t| ≤ w * (4 / 2 ^ 53 * l + 5 / 2 ^ 54 + 5 / 2 ^ 54 * (l / L)) := by
    have e : w * a - t = w * ((a - l) - (l / L) * (M - L)) := by
      have : t = w * M * (l / L) := by
        rw [hwM]; show n * l / L = _; rw [mul_div_assoc]
      rw [this]
      field_simp
      ring
    rw [e, abs_mul, abs_of_nonneg hnM]
    apply mul_le_mul_of_nonneg_left _ hnM
    have hlL : 0 ≤ l / L := div_nonneg (le_of_lt hl) (le_of_lt hL0)
    have h3 : |(l / L) * (M - L)| ≤ (l / L) * (2 / 2 ^ 53 * L + 5 / 2 ^ 54) := by
      rw [abs_mul, abs_of_nonneg hlL]
      exact mul_le_mul_of_nonneg_left me hlL
    have h4 : (l / L) * (2 / 2 ^ 53 * L + 5 / 2 ^ 54) = 2 / 2 ^ 53 * l + 5 / 2 ^ 54 * (l / L) := by field_simp
    have h5 := abs_sub (a - l) ((l / L) * (M - L))
    rw [h4] at h3
    norm_num at *
    linarith
  -- the sizes
  have hwl : w * l ≤ t * (1 + 1 / 2 ^ 19) := by
    have h3 := mul_le_mul_of_nonneg_right hwL (le_of_lt hl)
    rw [← ht] at h3
    have h4 : w * l * (1 - 1 / 2 ^ 20) ≤ t := by
      apply le_of_mul_le_mul_right _ hL0
      linarith
    norm_num at *
    linarith
  have hw1 : w ≤ n / L * (1 + 1 / 2 ^ 19) := by
    have h4 : w * (1 - 1 / 2 ^ 20) ≤ n / L := by
      rw [le_div_iff₀ hL0]; linarith
    norm_num at *
    linarith
  have hwlL : w * (l / L) ≤ t / L * (1 + 1 / 2 ^ 19) := by
    have h3 := div_le_div_of_nonneg_right hwl (le_of_lt hL0)
    calc w * (l / L) = w * l / L := by ring
      _ ≤ t * (1 + 1 / 2 ^ 19) / L := h3
      _ = _ := by ring
  have hwa' : w * a ≤ t * (1 + 1 / 2 ^ 19) * (1 + 2 / 2 ^ 53) + n / L * (1 + 1 / 2 ^ 19) * (5 / 2 ^ 54) := by
    have h3 : a ≤ l * (1 + 2 / 2 ^ 53) + 5 / 2 ^ 54 := by linarith
    have h4 := mul_le_mul_of_nonneg_left h3 hnM
    have h5 := mul_le_mul_of_nonneg_right hwl (show (0 : ℝ) ≤ 1 + 2 / 2 ^ 53 by norm_num)
    have h6 := mul_le_mul_of_nonneg_right hw1 (show (0 : ℝ) ≤ 5 / 2 ^ 54 by norm_num)
    linarith
  have htL : 0 ≤ t / L := div_nonneg ht0 (le_of_lt hL0)
  have hnL : 0 ≤ n / L := div_nonneg hn (le_of_lt hL0)
  have hfin : w * a * (3 / 2 ^ 53) + w * (4 / 2 ^ 53 * l + 5 / 2 ^ 54 + 5 / 2 ^ 54 * (l / L)) ≤ slack n L t := by
    have e : slack n L t = t / 2 ^ 50 + n / L / 2 ^ 50 + t / L / 2 ^ 50 := by unfold slack; rw [abs_of_nonneg ht0]; ring
    rw [e]
    have e2 : w * (4 / 2 ^ 53 * l + 5 / 2 ^ 54 + 5 / 2 ^ 54 * (l / L)) = 4 / 2 ^ 53 * (w * l) + 5 / 2 ^ 54 * w + 5 / 2 ^ 54 * (w * (l / L)) := by ring
    rw [e2]
    norm_num at *
    linarith
  have := abs_sub_le q (w * a) t
  linarith

end Verif.LogHisto
