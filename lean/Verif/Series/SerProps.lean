import Mathlib.Analysis.SpecialFunctions.Log.Basic
import Verif.Series.SerLemmas

/-!
# Properties of series

C37 (autocovariance), C93 (test for correlation).
-/

namespace Verif.Series

open Verif PQ

theorem newSer_ok (x : Rat) {maxLag : Nat} (h0 : 0 < maxLag) (h1 : maxLag < 2 ^ 32 - 1) : ∃ s, newSer x maxLag = .ok s ∧ InvS s [] ∧ s.maxLag = maxLag := by
  unfold newSer
  rw [show decide (0 < maxLag) = true from decide_eq_true h0, Res.require_true, Res.bind_ok]
  simp only []
  rw [Nat.mod_eq_of_lt (by omega)]
  exact resetSer_ok (s := ⟨maxLag, List.replicate (maxLag + 1) x, List.replicate (maxLag + 1) x, List.replicate (maxLag + 1) x, 0, Stats.reset⟩) ⟨h0, h1⟩
    (List.length_replicate ..) (List.length_replicate ..) (List.length_replicate ..)

theorem sum_split (x : Nat → Rat) (a b : Nat) : (∑ t ∈ Finset.range (a + b), x t) = (∑ t ∈ Finset.range a, x t) + ∑ t ∈ Finset.range b, x (t + a) := by
  induction b with
  | zero => simp
  | succ b ih => rw [← Nat.add_assoc, Finset.sum_range_succ, ih, Finset.sum_range_succ, Nat.add_comm b a]; ring

/-- C37. `autocovariance(lag)` is the estimator of the textbook, in exact arithmetic, for lags below the number of values. Missing: larger lags, see `series_lag_false`. -/
theorem series_autocovariance_partial (x : Rat) {maxLag : Nat} (h0 : 0 < maxLag) (h1 : maxLag < 2 ^ 32 - 1) (ops : List SerOp) (hb : ops.length < 2 ^ 32) {lag : Nat} (hl : lag ≤ maxLag)
    (hn : lag < (valuesSer ops).length) :
    ∃ s0 s, newSer x maxLag = .ok s0 ∧ runSer id s0 ops = .ok s ∧ autocovariance id s lag = .ok (some (autocov (valuesSer ops).length ((valuesSer ops).getD · 0) lag)) := by
  obtain ⟨s0, e0, hI0, m0⟩ := newSer_ok x h0 h1
  obtain ⟨s, e, hI, m⟩ := runSer_ok hI0 ops hb
  refine ⟨s0, s, e0, e, ?_⟩
  rw [autocovariance_ok hI (by omega) (by omega)]
  have hlen := lt_of_le_of_lt (valuesSer_le ops) hb
  generalize valuesSer ops = xs at *
  have hk : (xs.length + 2 ^ 32 + 2 ^ 32 - lag - 1) % 2 ^ 32 = xs.length - lag - 1 := by omega
  have hL : (∑ i ∈ Finset.range lag, if i < xs.length then g 0 xs (xs.length - 1 - i) else 0) = ∑ t ∈ Finset.range lag, g 0 xs (t + (xs.length - lag)) := by
    rw [← Finset.sum_range_reflect (fun t => g 0 xs (t + (xs.length - lag)))]
    apply Finset.sum_congr rfl
    intro i hi
    have := Finset.mem_range.1 hi
    rw [if_pos (by omega), show lag - 1 - i + (xs.length - lag) = xs.length - 1 - i by omega]
  have h1' := sum_split (g 0 xs) lag (xs.length - lag)
  have h2' := sum_split (g 0 xs) (xs.length - lag) lag
  rw [show lag + (xs.length - lag) = xs.length by omega, ← sum_g] at h1'
  rw [show xs.length - lag + lag = xs.length by omega, ← sum_g] at h2'
  rw [hk, hL]
  have hnum : (∑ t ∈ Finset.range (xs.length - lag), (g 0 xs t - meanOf xs.length (g 0 xs)) * (g 0 xs (t + lag) - meanOf xs.length (g 0 xs))) =
      (∑ t ∈ Finset.range (xs.length - lag), g 0 xs t * g 0 xs (t + lag)) - meanOf xs.length (g 0 xs) * (∑ t ∈ Finset.range (xs.length - lag), g 0 xs t) -
        meanOf xs.length (g 0 xs) * (∑ t ∈ Finset.range (xs.length - lag), g 0 xs (t + lag)) + (xs.length - lag : Nat) * (meanOf xs.length (g 0 xs) * meanOf xs.length (g 0 xs)) := by
    generalize meanOf xs.length (g 0 xs) = m
    rw [Finset.mul_sum, Finset.mul_sum, ← Finset.sum_sub_distrib, ← Finset.sum_sub_distrib, ← nsmul_eq_mul, ← Finset.card_range (xs.length - lag), ← Finset.sum_const,
      Finset.card_range, ← Finset.sum_add_distrib]
    apply Finset.sum_congr rfl
    intro t _
    ring
  show _ = Res.ok (some ((∑ t ∈ Finset.range (xs.length - lag), (g 0 xs t - meanOf xs.length (g 0 xs)) * (g 0 xs (t + lag) - meanOf xs.length (g 0 xs))) / xs.length))
  rw [hnum]
  have hc : ((xs.length - lag : Nat) : Rat) = ((xs.length - lag - 1 : Nat) : Rat) + 1 := by
    rw [← Nat.cast_succ]; congr 1; omega
  rw [hc]
  generalize ((xs.length - lag - 1 : Nat) : Rat) = k
  generalize meanOf xs.length (g 0 xs) = mu at *
  have hz : (xs.length : Rat) ≠ 0 := by exact_mod_cast (by omega : xs.length ≠ 0)
  congr 2
  rw [← add_div]
  congr 1
  have q1 : (∑ t ∈ Finset.range (xs.length - lag), g 0 xs (t + lag)) = xs.sum - ∑ t ∈ Finset.range lag, g 0 xs t := by rw [h1']; ring
  have q2 : (∑ t ∈ Finset.range (xs.length - lag), g 0 xs t) = xs.sum - ∑ t ∈ Finset.range lag, g 0 xs (t + (xs.length - lag)) := by rw [h2']; ring
  rw [q1, q2]
  ring

/-- A case of the theorem, from the comment at the top of `StatsSeries.cpp`. -/
example : (newSer 7 2 >>= (runSer id · [.add 9, .reset, .add 47, .add 64, .add 23, .add 71])).map (fun s => autocovariance id s 1) =
    .ok (.ok (some (autocov 4 ([47, 64, 23, 71].getD · 0) 1))) ∧ valuesSer [.add 9, .reset, .add 47, .add 64, .add 23, .add 71] = [47, 64, 23, 71] := by
  decide +kernel

/-- C37. It is false of lags that no two values have: `sampleno - lag - 1` wraps, and the result, which should be 0, is about `2^32` times the square of the mean. -/
theorem series_lag_false (x : Rat) {maxLag : Nat} (h0 : 0 < maxLag) (h1 : maxLag < 2 ^ 32 - 1) (ops : List SerOp) (hb : ops.length < 2 ^ 32) {lag : Nat} (hl : lag ≤ maxLag)
    (hn : (valuesSer ops).length ≤ lag) (hne : 0 < (valuesSer ops).length) :
    ∃ s0 s, newSer x maxLag = .ok s0 ∧ runSer id s0 ops = .ok s ∧ autocov (valuesSer ops).length ((valuesSer ops).getD · 0) lag = 0 ∧
      autocovariance id s lag = .ok (some (meanOf (valuesSer ops).length ((valuesSer ops).getD · 0) ^ 2 * (2 ^ 32 - (lag - (valuesSer ops).length : Nat)) / (valuesSer ops).length)) := by
  obtain ⟨s0, e0, hI0, m0⟩ := newSer_ok x h0 h1
  obtain ⟨s, e, hI, m⟩ := runSer_ok hI0 ops hb
  have hlen := lt_of_le_of_lt (valuesSer_le ops) hb
  generalize hxs : valuesSer ops = xs at *
  refine ⟨s0, s, e0, e, ?_, ?_⟩
  · unfold autocov
    rw [Nat.sub_eq_zero_of_le hn]
    simp
  rw [autocovariance_ok hI (by omega) hne]
  have hk : (xs.length + 2 ^ 32 + 2 ^ 32 - lag - 1) % 2 ^ 32 = 2 ^ 32 - (lag - xs.length) - 1 := by omega
  have hF : (∑ t ∈ Finset.range lag, g 0 xs t) = xs.sum := by
    rw [show lag = xs.length + (lag - xs.length) by omega, sum_split, ← sum_g, Finset.sum_eq_zero (s := Finset.range (lag - xs.length)), add_zero]
    intro t _; exact g_out xs (by omega)
  have hL : (∑ i ∈ Finset.range lag, if i < xs.length then g 0 xs (xs.length - 1 - i) else 0) = xs.sum := by
    rw [show lag = xs.length + (lag - xs.length) by omega, sum_split, Finset.sum_eq_zero (s := Finset.range (lag - xs.length)), add_zero, sum_g,
      ← Finset.sum_range_reflect (g 0 xs)]
    · apply Finset.sum_congr rfl
      intro i hi
      rw [if_pos (Finset.mem_range.1 hi)]
    · intro t _; rw [if_neg (by omega)]
  rw [hk, hF, hL, Nat.sub_eq_zero_of_le hn]
  show _ = Res.ok (some (meanOf xs.length (g 0 xs) ^ 2 * (2 ^ 32 - ((lag - xs.length : Nat) : Rat)) / xs.length))
  have hc : ((2 ^ 32 - (lag - xs.length) - 1 : Nat) : Rat) = 2 ^ 32 - ((lag - xs.length : Nat) : Rat) - 1 := by
    rw [Nat.sub_sub, Nat.cast_sub (by omega)]; push_cast; ring
  rw [hc]
  congr 2
  rw [← add_div, Finset.range_zero, Finset.sum_empty]
  congr 1
  ring

/-- A single value, 1, has the autocovariance `2^32` at lag 1. -/
example : (newSer 7 1 >>= (runSer id · [.add 1])).map (fun s => autocovariance id s 1) = .ok (.ok (some (2 ^ 32))) := by decide +kernel

/-- C37. Without values the autocovariance is not a number. -/
theorem series_empty (x : Rat) {maxLag : Nat} (h0 : 0 < maxLag) (h1 : maxLag < 2 ^ 32 - 1) {lag : Nat} (hl : lag ≤ maxLag) : ∃ s0, newSer x maxLag = .ok s0 ∧ autocovariance id s0 lag = .ok none := by
  obtain ⟨s0, e0, hI0, m0⟩ := newSer_ok x h0 h1
  refine ⟨s0, e0, ?_⟩
  unfold autocovariance
  rw [show decide (lag ≤ s0.maxLag) = true from decide_eq_true (by omega), Res.require_true, Res.bind_ok, lasts_ok _ _ _ _ (by rw [hI0.l1]; omega), Res.bind_ok,
    rd_eq 0 _ _ (by rw [hI0.l2]; omega), Res.bind_ok, rd_eq 0 _ _ (by rw [hI0.l3]; omega), Res.bind_ok]
  simp only []
  rw [if_pos (show s0.no = 0 from hI0.no)]
  rfl

/-- C37. The largest lag that the constructor accepts makes it allocate no room at all and write there. -/
theorem series_max_false (x : Rat) : newSer x (2 ^ 32 - 1) = .ub := by
  unfold newSer
  rw [show decide (0 < 2 ^ 32 - 1) = true from decide_eq_true (by omega), Res.require_true, Res.bind_ok]
  rfl

/-! ## C93 -/

/-- `iscorrelated95`, `StatsSeries.cpp:149-166`, of `n` values with autocorrelation `r`, over the reals. -/
noncomputable def isCorrelated95 (n : Nat) (r : ℝ) : Prop := ¬ n ≤ 3 ∧ 1.96 ≤ Real.sqrt (n - 3) / 2 * Real.log ((1 + r) / (1 - r))

/-- C93. The hypothesis test, of whether the correlation is other than 0, is one-sided: negative correlations, however strong, are never reported. -/
theorem correlated_negative_false (n : Nat) (r : ℝ) (h : r ≤ 0) (h1 : -1 < r) : ¬ isCorrelated95 n r := by
  rintro ⟨_, h2⟩
  have hlog : Real.log ((1 + r) / (1 - r)) ≤ 0 := Real.log_nonpos (div_nonneg (by linarith) (by linarith)) (by rw [div_le_one (by linarith)]; linarith)
  have hs : 0 ≤ Real.sqrt (n - 3) / 2 := by positivity
  have := mul_nonpos_of_nonneg_of_nonpos hs hlog
  norm_num at h2
  linarith

/-- C93. What is there: of more than three values, with a correlation of 1 excluded, the test is monotone in the correlation and in the number of values. -/
theorem correlated_monotone_partial {n n' : Nat} {r r' : ℝ} (hn : n ≤ n') (hr : r ≤ r') (h1 : -1 < r) (h2 : r' < 1) (h : isCorrelated95 n r) : isCorrelated95 n' r' := by
  obtain ⟨a, b⟩ := h
  have h3 : 3 < n := by omega
  have hpos : 0 < r := by
    by_contra hneg
    exact correlated_negative_false n r (not_lt.1 hneg) h1 ⟨a, b⟩
  refine ⟨by omega, le_trans b ?_⟩
  have hx : 1 ≤ (1 + r) / (1 - r) := by rw [le_div_iff₀ (by linarith)]; linarith
  apply mul_le_mul
  · have : (n : ℝ) ≤ n' := by exact_mod_cast hn
    have := Real.sqrt_le_sqrt (show (n : ℝ) - 3 ≤ n' - 3 by linarith)
    linarith
  · apply Real.log_le_log (by linarith)
    rw [div_le_div_iff₀ (by linarith) (by linarith)]
    nlinarith
  · exact Real.log_nonneg hx
  · positivity

/-- The test does report a correlation. -/
example : isCorrelated95 100 (1 / 2) := by
  refine ⟨by omega, ?_⟩
  have h9 : (9 : ℝ) ≤ Real.sqrt ((100 : Nat) - 3) := by
    apply Real.le_sqrt_of_sq_le
    norm_num
  have hl : (1 : ℝ) / 2 ≤ Real.log ((1 + 1 / 2) / (1 - 1 / 2)) := by
    have := Real.one_sub_inv_le_log_of_pos (show (0 : ℝ) < (1 + 1 / 2) / (1 - 1 / 2) by norm_num)
    refine le_trans ?_ this
    norm_num
  calc (1.96 : ℝ) ≤ 9 / 2 * (1 / 2) := by norm_num
    _ ≤ _ := mul_le_mul (div_le_div_of_nonneg_right h9 (by norm_num)) hl (by norm_num) (by positivity)

end Verif.Series
