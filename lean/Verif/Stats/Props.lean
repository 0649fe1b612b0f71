import Verif.Stats.Lemmas

/-! # Basic statistics: the properties -/

namespace Verif.Stats

open Verif

/-- C31. The fields are those of the values that were added, directly or by merging. -/
theorem stats_values (h : Hist) :
    (eval id h).number = (values h).length ∧ (eval id h).sum = (values h).sum ∧ (eval id h).sumsq = ((values h).map (· ^ 2)).sum ∧
      IsMin (values h) (eval id h).lo ∧ IsMax (values h) (eval id h).hi :=
  ⟨(eval_any id h).1, (eval_sums h).1, (eval_sums h).2, (eval_any id h).2⟩

/-- C31. Histories that added the same values, in any order and grouping, end the same. -/
theorem stats_grouping (h h' : Hist) (hp : (values h).Perm (values h')) : eval id h = eval id h' := by
  obtain ⟨a1, a2, a3, a4, a5⟩ := stats_values h
  obtain ⟨b1, b2, b3, b4, b5⟩ := stats_values h'
  have e1 : (eval id h).number = (eval id h').number := by rw [a1, b1, hp.length_eq]
  have e2 : (eval id h).sum = (eval id h').sum := by rw [a2, b2, hp.sum_eq]
  have e3 : (eval id h).sumsq = (eval id h').sumsq := by rw [a3, b3, (hp.map _).sum_eq]
  have c4 : ∀ o, IsMin (values h') o → IsMin (values h) o := by
    intro o ho
    cases o with
    | none => exact List.perm_nil.1 (by have h0 : values h' = [] := ho; rw [h0] at hp; exact hp)
    | some m => exact ⟨hp.mem_iff.2 ho.1, fun v hv => ho.2 v (hp.mem_iff.1 hv)⟩
  have c5 : ∀ o, IsMax (values h') o → IsMax (values h) o := by
    intro o ho
    cases o with
    | none => exact List.perm_nil.1 (by have h0 : values h' = [] := ho; rw [h0] at hp; exact hp)
    | some m => exact ⟨hp.mem_iff.2 ho.1, fun v hv => ho.2 v (hp.mem_iff.1 hv)⟩
  have e4 := a4.unique (c4 _ b4)
  have e5 := a5.unique (c5 _ b5)
  cases hx : eval id h; cases hy : eval id h'
  rw [hx, hy] at e1 e2 e3 e4 e5
  simp only at e1 e2 e3 e4 e5
  rw [e1, e2, e3, e4, e5]

/-- C31. Merging is adding all the values of the other, one at a time. -/
theorem stats_merge (h h' : Hist) : eval id (.merge h h') = eval id (adds h (values h')) :=
  stats_grouping _ _ (by rw [values_adds]; exact List.Perm.refl _)

example : eval id (.merge (.add (.add .new 1) 5) (.add (.merge .new (.add .new (-2))) 7)) = ⟨4, 11, 79, some (-2), some 7⟩ := by decide +kernel

/-- C31. The mean and the variance are the average and the average squared difference from it. -/
theorem stats_moments (h : Hist) (hne : values h ≠ []) : mean id (eval id h) = avg (values h) ∧
    variance id (eval id h) = avg ((values h).map fun v => (v - avg (values h)) ^ 2) := by
  obtain ⟨a1, a2, a3, -⟩ := stats_values h
  have hpos : 0 < (values h).length := List.length_pos_iff.2 hne
  have hq : ((values h).length : Rat) ≠ 0 := by exact_mod_cast (by omega : (values h).length ≠ 0)
  have hm : mean id (eval id h) = avg (values h) := by
    unfold mean avg
    rw [if_neg (by omega), a1, a2]; rfl
  refine ⟨hm, ?_⟩
  unfold variance
  rw [if_neg (by omega), hm, a1, a3]
  have e : avg ((values h).map fun v => (v - avg (values h)) ^ 2) = ((values h).map fun v => (v - avg (values h)) ^ 2).sum / (values h).length := by
    unfold avg; rw [List.length_map]
  rw [e, sum_sq_diff]
  simp only [id]
  have : (values h).sum = (values h).length * avg (values h) := by unfold avg; field_simp
  rw [this]
  field_simp
  ring

/-- C31. The variance is not negative, and the mean lies between the smallest and the largest value. -/
theorem stats_ranges (h : Hist) : 0 ≤ variance id (eval id h) ∧
    (values h ≠ [] → ∃ lo hi, (eval id h).lo = some lo ∧ (eval id h).hi = some hi ∧ lo ≤ mean id (eval id h) ∧ mean id (eval id h) ≤ hi) := by
  refine ⟨?_, ?_⟩
  · by_cases hne : values h = []
    · have : (eval id h).number = 0 := by rw [(stats_values h).1, hne]; rfl
      unfold variance
      rw [if_pos this]
    · rw [(stats_moments h hne).2]
      unfold avg
      apply div_nonneg _ (Nat.cast_nonneg _)
      apply List.sum_nonneg
      intro x hx
      obtain ⟨v, _, rfl⟩ := List.mem_map.1 hx
      positivity
  · intro hne
    obtain ⟨-, -, -, a4, a5⟩ := stats_values h
    rw [(stats_moments h hne).1]
    have hpos : (0 : Rat) < (values h).length := by exact_mod_cast List.length_pos_iff.2 hne
    cases hlo : (eval id h).lo with
    | none => rw [hlo] at a4; exact absurd a4 hne
    | some lo =>
      cases hhi : (eval id h).hi with
      | none => rw [hhi] at a5; exact absurd a5 hne
      | some hi =>
        rw [hlo] at a4
        rw [hhi] at a5
        refine ⟨lo, hi, rfl, rfl, ?_, ?_⟩
        · unfold avg
          rw [le_div_iff₀ hpos, mul_comm]
          exact sum_ge_of_le a4.2
        · unfold avg
          rw [div_le_iff₀ hpos, mul_comm]
          exact sum_le_of_ge a5.2

example : values (.merge (.add .new 3) (.add .new 4)) ≠ [] := by decide

/-- C91. With doubles, count, smallest and largest value are still exact, and the sum is off by no more than a rounding per call on the way. -/
theorem stats_double_partial (R : Flt.Rounding) (h : Hist) :
    (eval R.rnd h).number = (values h).length ∧ IsMin (values h) (eval R.rnd h).lo ∧ IsMax (values h) (eval R.rnd h).hi ∧
      |(eval R.rnd h).sum - (values h).sum| ≤ ((1 + 1 / 2 ^ 53) ^ calls h - 1) * ((values h).map abs).sum :=
  ⟨(eval_any _ h).1, (eval_any _ h).2.1, (eval_any _ h).2.2, eval_err R h⟩

/-- C91. With doubles, as long as the values are integers and their squares sum up to no more than `2^53`, everything is exact, so that order and grouping do not
matter. -/
theorem stats_integer_partial (R : Flt.Rounding) : ∀ h : Hist, (∀ v ∈ values h, ∃ m : Int, v = m) → ((values h).map (· ^ 2)).sum ≤ 2 ^ 53 → eval R.rnd h = eval id h
  | .new, _, _ => rfl
  | .reset _, _, _ => rfl
  | .add h v, hi, hb => by
    have hi' : ∀ v ∈ values h, ∃ m : Int, v = m := fun x hx => hi x (by simp [values, hx])
    obtain ⟨m, hm⟩ := hi v (by simp [values])
    obtain ⟨s1, s2, s3⟩ := sum_int hi
    obtain ⟨t1, t2⟩ := eval_sums h
    have hsq : 0 ≤ ((values h).map (· ^ 2)).sum := le_trans (abs_nonneg _) (sum_int hi').2.2
    have hv : (values (.add h v)).sum = (values h).sum + v := by simp [values]
    have hv2 : ((values (.add h v)).map (· ^ 2)).sum = ((values h).map (· ^ 2)).sum + v * v := by simp [values, sq]
    have hvv : 0 ≤ v * v := mul_self_nonneg v
    rw [hv2] at hb s2
    have ih := stats_integer_partial R h hi' (by linarith)
    rw [eval, eval, ih]
    unfold add
    rw [t1, t2, int_exact R (x := v * v) ⟨m * m, by rw [hm]; push_cast; rfl⟩ (by rw [abs_of_nonneg hvv]; linarith),
      int_exact R (x := (values h).sum + v) (by rw [← hv]; exact s1) (by rw [← hv]; linarith [hv2]),
      int_exact R (x := _ + v * v) s2 (by rw [abs_of_nonneg (by linarith)]; exact hb)]
    rfl
  | .merge h h', hi, hb => by
    have hi1 : ∀ v ∈ values h, ∃ m : Int, v = m := fun x hx => hi x (by simp [values, hx])
    have hi2 : ∀ v ∈ values h', ∃ m : Int, v = m := fun x hx => hi x (by simp [values, hx])
    obtain ⟨s1, s2, s3⟩ := sum_int hi
    obtain ⟨t1, t2⟩ := eval_sums h
    obtain ⟨u1, u2⟩ := eval_sums h'
    have hsq1 : 0 ≤ ((values h).map (· ^ 2)).sum := le_trans (abs_nonneg _) (sum_int hi1).2.2
    have hsq2 : 0 ≤ ((values h').map (· ^ 2)).sum := le_trans (abs_nonneg _) (sum_int hi2).2.2
    have hv : (values (.merge h h')).sum = (values h).sum + (values h').sum := by simp [values]
    have hv2 : ((values (.merge h h')).map (· ^ 2)).sum = ((values h).map (· ^ 2)).sum + ((values h').map (· ^ 2)).sum := by simp [values]
    rw [hv2] at hb s2 s3
    rw [hv] at s1 s3
    rw [eval, eval, stats_integer_partial R h hi1 (by linarith), stats_integer_partial R h' hi2 (by linarith)]
    unfold merge
    rw [t1, t2, u1, u2, int_exact R s1 (by linarith), int_exact R s2 (by rw [abs_of_nonneg (by linarith)]; exact hb)]
    rfl

example : ∀ v ∈ values (.merge (.add .new 3) (.add .new (-4))), ∃ m : Int, v = m := by
  intro v hv
  simp [values] at hv
  rcases hv with rfl | rfl
  · exact ⟨3, by norm_num⟩
  · exact ⟨-4, by norm_num⟩

/-- C91 is false in general: after adding 0.1 three times, the mean is larger than the largest value and the variance is negative. -/
theorem stats_double_false : ∃ v, Flt.ieee.rnd v = v ∧ v < mean Flt.ieee.rnd (eval Flt.ieee.rnd (adds .new [v, v, v])) ∧
    variance Flt.ieee.rnd (eval Flt.ieee.rnd (adds .new [v, v, v])) < 0 :=
  ⟨3602879701896397 / 36028797018963968, by decide +kernel, by decide +kernel, by decide +kernel⟩

end Verif.Stats
