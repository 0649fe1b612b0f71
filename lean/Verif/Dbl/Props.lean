import Verif.Dbl.Lemmas
import Mathlib.Algebra.Order.Ring.Pow

/-! # C208: comparing doubles with a tolerance -/

namespace Verif.Dbl

/-! ## The specification -/

/-- Numbers that have an order: not NaN, and not twice the same infinity. -/
def Comparable (a b : Val) : Prop := a ≠ .nan ∧ b ≠ .nan ∧ ∀ s, ¬ (a = .inf s ∧ b = .inf s)

/-- Exactly one of three. -/
def OneOf (x y z : Bool) : Prop := (x, y, z) = (true, false, false) ∨ (x, y, z) = (false, true, false) ∨ (x, y, z) = (false, false, true)

/-- C208: with a positive tolerance, for numbers that have an order, exactly one of less, equal and greater holds; the other two comparisons are the negations; less and greater mirror each other and agree with the exact order; and equality is symmetric. -/
theorem compare_partial (F : Rounding) (e a b : Val) (he : lt (.fin 0) e = true) (h : Comparable a b) :
    OneOf (less F e a b) (eq F e a b) (gt F e a b) ∧ leq F e a b = !gt F e a b ∧ geq F e a b = !less F e a b ∧
    less F e a b = gt F e b a ∧ eq F e a b = eq F e b a ∧ (less F e a b = true → lt a b = true) ∧ (lt a b = true → leq F e a b = true) := by
  have hs := eq_symm F e a b
  have key : lt a b = false → lt b a = false → eq F e a b = true := by
    intro h1 h2
    have := lt_total h.1 h.2.1 h1 h2
    subst this
    cases a with
    | nan => exact absurd rfl h.1
    | inf s => exact absurd ⟨rfl, rfl⟩ (h.2.2 s)
    | fin q => exact eq_self F e he q
  have as : lt a b = true → lt b a = false := lt_asymm
  unfold less gt leq geq OneOf
  rw [← hs]
  cases h1 : lt a b <;> cases h2 : lt b a <;> cases h3 : eq F e a b <;> simp_all

/-- A number and an infinity with the tolerance one half; and two numbers. -/
example : lt (.fin 0) (.fin (1 / 2)) = true ∧ Comparable (.fin 1) (.inf false) ∧ Comparable (.fin 1) (.fin 2) := by
  refine ⟨?_, ⟨by simp, by simp, fun s h => by cases h.1⟩, ⟨by simp, by simp, fun s h => by cases h.1⟩⟩
  simp [lt]

/-- NaN is neither less nor equal nor greater. -/
theorem nan_unordered (F : Rounding) (e a : Val) : eq F e .nan a = false ∧ eq F e a .nan = false ∧ less F e .nan a = false ∧ less F e a .nan = false ∧
    leq F e .nan a = false ∧ leq F e a .nan = false := by
  have h1 := eq_nan_left F e a
  have h2 := eq_nan_right F e a
  have h3 : lt a .nan = false := by cases a <;> rfl
  have h4 : lt .nan a = false := by cases a <;> rfl
  simp [less, leq, h1, h2, h3, h4]

/-- C208: numbers other than zero are equal if their difference is less than the tolerance times the smaller of their sizes, and not if it is not, but for the rounding of two operations; and equal numbers have the same sign. The tolerance is any number up to 1 of the normal range. -/
theorem eq_relative (F : Rounding) (a b ε : ℚ) (ha : a ≠ 0) (hb : b ≠ 0) (ga : (Val.fin a).Ok) (gb : (Val.fin b).Ok) (hε : (2 : ℚ) ^ (-1022 : ℤ) < ε) (h1 : ε ≤ 1) :
    (|a - b| * (1 + 1 / 2 ^ 53) ^ 2 < ε * Min.min |a| |b| → eq F (.fin ε) (.fin a) (.fin b) = true) ∧
    (eq F (.fin ε) (.fin a) (.fin b) = true → |a - b| * (1 - 1 / 2 ^ 53) ^ 2 < ε * Min.min |a| |b| ∧ 0 < a * b) := by
  refine ⟨close_eq F ha hb ga gb hε h1, fun h => ?_⟩
  have hc := eq_close F ha hb ga.1 gb.1 hε h
  refine ⟨hc, ?_⟩
  by_contra hn
  push Not at hn
  have hlt : a * b < 0 := lt_of_le_of_ne hn (mul_ne_zero ha hb)
  have hx : |a| + |b| = |a - b| := by
    rcases mul_neg_iff.1 hlt with ⟨p, q⟩ | ⟨p, q⟩
    · rw [abs_of_pos p, abs_of_neg q, abs_of_pos (by linarith)]; ring
    · rw [abs_of_neg p, abs_of_pos q, abs_of_neg (by linarith)]; ring
  have hm1 := min_le_left |a| |b|
  have hm2 := min_le_right |a| |b|
  have hm : 0 < Min.min |a| |b| := lt_min (abs_pos.2 ha) (abs_pos.2 hb)
  rw [← hx] at hc
  have hu : (1 : ℚ) / 2 ≤ (1 - 1 / 2 ^ 53) ^ 2 := by norm_num
  generalize Min.min |a| |b| = m at *
  generalize ((1 : ℚ) - 1 / 2 ^ 53) ^ 2 = u at *
  have h2 : ε * m ≤ m := by nlinarith
  nlinarith

/-- The default tolerance. -/
example : (2 : ℚ) ^ (-1022 : ℤ) < 1 / 10 ^ 12 := by
  refine lt_of_le_of_lt (zpow_le_zpow_right₀ (by norm_num) (show (-1022 : ℤ) ≤ -50 by norm_num)) ?_
  norm_num

/-- C208: beside zero the tolerance is absolute. -/
theorem eq_zero_iff (F : Rounding) (a ε : ℚ) (ga : (Val.fin a).Ok) : eq F (.fin ε) (.fin a) (.fin 0) = true ↔ |a| < ε := eq_zero F ga

theorem ok_small (n : ℤ) (k : ℕ) (hn : |n| ≤ 2 ^ 53) (hk : k ≤ 1074) : (Val.fin (n / 2 ^ k)).Ok := by
  refine ⟨⟨n, -k, hn, by omega, by rw [zpow_neg, zpow_natCast]; rfl⟩, ?_⟩
  rw [abs_div, abs_of_pos (by positivity : (0 : ℚ) < 2 ^ k)]
  have h1 : (|(n : ℚ)|) ≤ 2 ^ 53 := by exact_mod_cast hn
  have h2 : (1 : ℚ) ≤ 2 ^ k := one_le_pow₀ (by norm_num)
  refine lt_of_le_of_lt (div_le_self (abs_nonneg _) h2) (lt_of_le_of_lt h1 ?_)
  exact pow_lt_pow_right₀ (by norm_num) (by norm_num)

theorem tiny_lt {ε : ℚ} (h : 1 / 16 ≤ ε) : (2 : ℚ) ^ (-1022 : ℤ) < ε := by
  refine lt_of_lt_of_le (lt_of_le_of_lt (zpow_le_zpow_right₀ (by norm_num) (show (-1022 : ℤ) ≤ -5 by norm_num)) ?_) h
  norm_num

/-- Two numbers that are equal with the tolerance one quarter. -/
example (F : Rounding) : eq F (.fin (1 / 4)) (.fin 1) (.fin (19 / 16)) = true := by
  have o1 : (Val.fin 1).Ok := by simpa using ok_small 1 0 (by norm_num) (by norm_num)
  have o2 : (Val.fin (19 / 16)).Ok := by have := ok_small 19 4 (by norm_num) (by norm_num); norm_num at this ⊢; exact this
  exact (eq_relative F 1 (19 / 16) (1 / 4) (by norm_num) (by norm_num) o1 o2 (tiny_lt (by norm_num)) (by norm_num)).1 (by norm_num [abs_of_neg, abs_of_pos])

/-- C208, false of the code: the tolerance is said to be relative to the larger of the two values. -/
theorem eq_larger_false (F : Rounding) : ∃ a b ε : ℚ, (Val.fin a).Ok ∧ (Val.fin b).Ok ∧ 0 < ε ∧ ε < 1 ∧ |a - b| < 7 / 8 * (ε * max |a| |b|) ∧ eq F (.fin ε) (.fin a) (.fin b) = false := by
  have o1 : (Val.fin 1).Ok := by simpa using ok_small 1 0 (by norm_num) (by norm_num)
  have o2 : (Val.fin (7 / 4)).Ok := by have := ok_small 7 2 (by norm_num) (by norm_num); norm_num at this ⊢; exact this
  refine ⟨1, 7 / 4, 1 / 2, o1, o2, by norm_num, by norm_num, ?_, ?_⟩
  · norm_num [abs_of_neg, abs_of_pos]
  · rw [Bool.eq_false_iff]
    intro h
    have := eq_close F (by norm_num) (by norm_num) o1.1 o2.1 (tiny_lt (by norm_num)) h
    norm_num [abs_of_neg, abs_of_pos] at this

/-- C208, false of the code: an infinity is not equal to itself, nor less or greater, whatever the tolerance. -/
theorem eq_inf_false (F : Rounding) (e : Val) (s : Bool) : eq F e (.inf s) (.inf s) = false ∧ less F e (.inf s) (.inf s) = false ∧ gt F e (.inf s) (.inf s) = false ∧ leq F e (.inf s) (.inf s) = false := by
  have h := eq_inf F e s
  cases s <;> simp [less, gt, leq, h, lt]

/-- C208, false of the code: `Double::lt` is not an order to sort by: two numbers may each be neither less nor greater than a third, but one less than the other. -/
theorem less_weak_false (F : Rounding) : ∃ a b c ε : ℚ, (Val.fin a).Ok ∧ (Val.fin b).Ok ∧ (Val.fin c).Ok ∧ 0 < ε ∧
    eq F (.fin ε) (.fin a) (.fin b) = true ∧ eq F (.fin ε) (.fin b) (.fin c) = true ∧ less F (.fin ε) (.fin a) (.fin c) = true := by
  have o1 : (Val.fin 1).Ok := by simpa using ok_small 1 0 (by norm_num) (by norm_num)
  have o2 : (Val.fin (19 / 16)).Ok := by have := ok_small 19 4 (by norm_num) (by norm_num); norm_num at this ⊢; exact this
  have o3 : (Val.fin (22 / 16)).Ok := by have := ok_small 22 4 (by norm_num) (by norm_num); norm_num at this ⊢; exact this
  refine ⟨1, 19 / 16, 22 / 16, 1 / 4, o1, o2, o3, by norm_num, ?_, ?_, ?_⟩
  · exact close_eq F (by norm_num) (by norm_num) o1 o2 (tiny_lt (by norm_num)) (by norm_num) (by norm_num [abs_of_neg, abs_of_pos])
  · exact close_eq F (by norm_num) (by norm_num) o2 o3 (tiny_lt (by norm_num)) (by norm_num) (by norm_num [abs_of_neg, abs_of_pos])
  · have : eq F (.fin (1 / 4)) (.fin 1) (.fin (22 / 16)) = false := by
      rw [Bool.eq_false_iff]
      intro h
      have := eq_close F (by norm_num) (by norm_num) o1.1 o3.1 (tiny_lt (by norm_num)) h
      norm_num [abs_of_neg, abs_of_pos] at this
    unfold less
    rw [this]
    simp only [lt, Bool.not_false, Bool.and_true, decide_eq_true_eq]
    norm_num

/-! ## The tolerance -/

/-- C208: `setEpsilonBits` sets exactly that power of two, down to the smallest number. -/
theorem setEpsilonBits_exact (F : Rounding) (n : ℕ) (h : n ≤ 1074) : setEpsilon F 2 n = .fin (1 / 2 ^ n) := by
  induction n with
  | zero => simp [setEpsilon]
  | succ n ih =>
    rw [setEpsilon, ih (by omega)]
    have e : (1 : ℚ) / 2 ^ n / 2 = ((1 : ℤ) : ℚ) / 2 ^ (n + 1) := by rw [pow_succ]; push_cast; rw [div_div]
    have o := ok_small 1 (n + 1) (by norm_num) h
    simp only [div]
    rw [if_neg (by norm_num), ofQ, e, F.exact o.1, if_pos o.2]
    simp

/-- C208: `setEpsilonDigits` sets that power of ten, but for one rounding for each digit, down to the end of the normal range. -/
theorem setEpsilonDigits_close (F : Rounding) (n : ℕ) (h : n ≤ 307) :
    ∃ q : ℚ, setEpsilon F 10 n = .fin q ∧ (Val.fin q).Ok ∧ (1 - 1 / 2 ^ 53) ^ n ≤ q * 10 ^ n ∧ q * 10 ^ n ≤ (1 + 1 / 2 ^ 53) ^ n := by
  induction n with
  | zero => exact ⟨1, rfl, by simpa using ok_small 1 0 (by norm_num) (by norm_num), by simp, by simp⟩
  | succ n ih =>
    obtain ⟨q, hq, ho, hlo, hhi⟩ := ih (by omega)
    have hb : 1 / 2 ≤ (1 - 1 / (2 : ℚ) ^ 53) ^ n := by
      have h1 := one_add_mul_le_pow (a := -(1 / (2 : ℚ) ^ 53)) (by norm_num) n
      have h2 : (n : ℚ) ≤ 307 := by exact_mod_cast (by omega : n ≤ 307)
      rw [← sub_eq_add_neg] at h1
      refine le_trans ?_ h1
      have : (n : ℚ) * (1 / 2 ^ 53) ≤ 307 * (1 / 2 ^ 53) := mul_le_mul_of_nonneg_right h2 (by norm_num)
      linarith [show (307 : ℚ) * (1 / 2 ^ 53) ≤ 1 / 2 by norm_num]
    have ht : (0 : ℚ) < 10 ^ n := by positivity
    have hq0 : 0 < q := by
      have : 0 < q * 10 ^ n := by linarith
      exact pos_of_mul_pos_left this ht.le
    have hy : (2 : ℚ) ^ (-1022 : ℤ) ≤ q / 10 := by
      have h1 : (1 : ℚ) / 2 / 10 ^ n ≤ q := by rw [div_le_iff₀ ht]; linarith
      have h2 : (10 : ℚ) ^ n ≤ 10 ^ 306 := pow_le_pow_right₀ (by norm_num) (by omega)
      have h3 : (1 : ℚ) / 2 / 10 ^ 306 ≤ 1 / 2 / 10 ^ n := div_le_div_of_nonneg_left (by norm_num) ht h2
      have h4 : (2 : ℚ) ^ (-1022 : ℤ) ≤ 1 / 2 / 10 ^ 306 / 10 := by
        rw [zpow_neg, div_div, div_div, one_div]
        refine inv_anti₀ (by positivity) ?_
        have : (2 * 10 ^ 306 * 10 : ℕ) ≤ 2 ^ 1022 := by decide +kernel
        exact_mod_cast this
      refine h4.trans ?_
      exact div_le_div_of_nonneg_right (h3.trans h1) (by norm_num)
    have hy0 : 0 < q / 10 := by positivity
    have he := F.err (x := q / 10) (by rwa [abs_of_pos hy0])
    rw [abs_of_pos hy0] at he
    obtain ⟨h1, h2⟩ := abs_le.1 he
    have hr0 : 0 ≤ F.rnd (q / 10) := F.nonneg hy0.le
    have hrq : F.rnd (q / 10) ≤ q := F.le_of_grid ho.1 (by linarith)
    have hr : |F.rnd (q / 10)| < 2 ^ 1024 := by
      rw [abs_of_nonneg hr0]
      refine lt_of_le_of_lt hrq ?_
      have := ho.2
      rwa [abs_of_pos hq0] at this
    refine ⟨F.rnd (q / 10), ?_, ⟨F.grid _, hr⟩, ?_, ?_⟩
    · rw [setEpsilon, hq]
      simp only [div]
      rw [if_neg (by norm_num : ¬ (10 : ℚ) = 0), ofQ, if_pos hr]
    · have h3 : q / 10 * (1 - 1 / 2 ^ 53) ≤ F.rnd (q / 10) := by linarith
      have h4 := mul_le_mul_of_nonneg_right h3 (by positivity : (0 : ℚ) ≤ 10 ^ (n + 1))
      refine le_trans ?_ h4
      have e : q / 10 * (1 - 1 / 2 ^ 53) * 10 ^ (n + 1) = q * 10 ^ n * (1 - 1 / 2 ^ 53) := by rw [pow_succ]; ring
      rw [e, pow_succ _ n]
      exact mul_le_mul_of_nonneg_right hlo (by norm_num)
    · have h3 : F.rnd (q / 10) ≤ q / 10 * (1 + 1 / 2 ^ 53) := by linarith
      have h4 := mul_le_mul_of_nonneg_right h3 (by positivity : (0 : ℚ) ≤ 10 ^ (n + 1))
      refine le_trans h4 ?_
      have e : q / 10 * (1 + 1 / 2 ^ 53) * 10 ^ (n + 1) = q * 10 ^ n * (1 + 1 / 2 ^ 53) := by rw [pow_succ]; ring
      rw [e, pow_succ _ n]
      exact mul_le_mul_of_nonneg_right hhi (by norm_num)

/-- C208, false of the code: with one bit more the tolerance is zero, and then no number is equal to itself. -/
theorem setEpsilon_zero_false : setEpsilon ieee 2 1075 = .fin 0 ∧ ∀ (F : Rounding) (v : Val), eq F (.fin 0) v v = false := by
  constructor
  · rw [setEpsilon, setEpsilonBits_exact ieee 1074 (le_refl _)]
    have e : (1 : ℚ) / 2 ^ 1074 / 2 = 1 / 2 * 2 ^ (-1074 : ℤ) := by rw [zpow_neg]; rw [show ((1074 : ℤ)) = ((1074 : ℕ) : ℤ) from rfl, zpow_natCast]; ring
    have hr : ieee.rnd (1 / 2 * 2 ^ (-1074 : ℤ)) = 0 := by
      show ieeeFull _ = 0
      unfold ieeeFull
      have ht := tiny_pos
      rw [if_neg]
      · rw [mul_div_assoc, div_self ht.ne', mul_one]
        have : Verif.Flt.rne (1 / 2) = 0 := by decide +kernel
        rw [this]; simp
      · rw [abs_of_pos (by positivity), tiny_52, not_le]
        generalize (2 : ℚ) ^ (-1074 : ℤ) = u at *
        nlinarith
    simp only [div]
    rw [if_neg (by norm_num), e, ofQ, hr, abs_zero, if_pos (by positivity)]
  · intro F v
    cases v with
    | nan => exact eq_nan_left F _ _
    | inf s => exact eq_inf F _ s
    | fin q =>
      have h1 : abs (sub F (.fin q) (.fin q)) = .fin 0 := by
        show abs (ofQ F (q - q)) = _
        rw [sub_self, ofQ_zero, abs_fin, abs_zero]
      have h2 : min (abs (.fin q)) (abs (.fin q)) = .fin |q| := by rw [abs_fin, min_fin, min_self]
      unfold eq
      rw [h1, h2]
      by_cases h : |q| = 0
      · simp [same, h, lt]
      · have : div F (.fin 0) (.fin |q|) = .fin 0 := by simp only [div, if_neg h, zero_div, ofQ_zero]
        simp [same, this, lt]

end Verif.Dbl
