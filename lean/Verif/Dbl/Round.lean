import Verif.Flt.Round

/-! # Rounding to `double`, with its range

As `Verif.Flt.Round`, with the exponents of `double`: below `2^-1022` numbers are multiples of `2^-1074`; a result of `2^1024` or more in size is an infinity. Every rule for ties that treats both signs alike is allowed. -/

namespace Verif.Dbl

open Verif.Flt (IsDouble ieeeRnd rne ulp)

/-- A number of 53 significant bits that is a multiple of `2^-1074`. -/
def Grid (x : ℚ) : Prop := ∃ m e : ℤ, |m| ≤ 2 ^ 53 ∧ -1074 ≤ e ∧ x = m * (2 : ℚ) ^ e

/-- Rounding to a nearest number of the grid. -/
structure Rounding where
  rnd : ℚ → ℚ
  grid : ∀ x, Grid (rnd x)
  nearest : ∀ x y, Grid y → |rnd x - x| ≤ |y - x|
  odd : ∀ x, rnd (-x) = -rnd x

theorem grid_double {x : ℚ} (h : Grid x) : IsDouble x := by
  obtain ⟨m, e, hm, _, rfl⟩ := h
  exact ⟨m, e, hm, rfl⟩

theorem grid_zero : Grid 0 := ⟨0, 0, by norm_num, by norm_num, by simp⟩

theorem grid_neg {x : ℚ} (h : Grid x) : Grid (-x) := by
  obtain ⟨m, e, hm, he, rfl⟩ := h
  exact ⟨-m, e, by rwa [abs_neg], he, by push_cast; ring⟩

theorem grid_abs {x : ℚ} (h : Grid x) : Grid |x| := by
  rcases abs_choice x with h' | h' <;> rw [h']
  · exact h
  · exact grid_neg h

theorem grid_pow (e : ℤ) (he : -1074 ≤ e) : Grid ((2 : ℚ) ^ e) := ⟨1, e, by norm_num, he, by simp⟩

/-- A multiple of the smallest number. -/
def Mult (x : ℚ) : Prop := ∃ k : ℤ, x = k * (2 : ℚ) ^ (-1074 : ℤ)

theorem grid_mult {x : ℚ} (h : Grid x) : Mult x := by
  obtain ⟨m, e, _, he, rfl⟩ := h
  obtain ⟨j, hj⟩ : ∃ j : ℕ, e = -1074 + j := ⟨(e + 1074).toNat, by omega⟩
  exact ⟨m * 2 ^ j, by rw [hj, zpow_add₀ (by norm_num), zpow_natCast]; push_cast; ring⟩

theorem mult_sub {x y : ℚ} (hx : Mult x) (hy : Mult y) : Mult (x - y) := by
  obtain ⟨k, rfl⟩ := hx
  obtain ⟨j, rfl⟩ := hy
  exact ⟨k - j, by push_cast; ring⟩

theorem tiny_pos : (0 : ℚ) < 2 ^ (-1074 : ℤ) := zpow_pos (by norm_num) _

theorem tiny_52 : (2 : ℚ) ^ (-1022 : ℤ) = 2 ^ 52 * 2 ^ (-1074 : ℤ) := by
  rw [← zpow_natCast, ← zpow_add₀ (by norm_num)]; norm_num

/-- Small multiples are on the grid. -/
theorem mult_grid {x : ℚ} (h : Mult x) (hx : |x| ≤ 2 ^ (-1022 : ℤ)) : Grid x := by
  obtain ⟨k, rfl⟩ := h
  refine ⟨k, -1074, ?_, le_refl _, rfl⟩
  rw [abs_mul, abs_of_pos tiny_pos, tiny_52] at hx
  have h1 := le_of_mul_le_mul_right hx tiny_pos
  have h2 : |k| ≤ 2 ^ 52 := by exact_mod_cast h1
  omega

namespace Rounding
variable (F : Rounding)

theorem exact {x : ℚ} (h : Grid x) : F.rnd x = x := by
  have := F.nearest x x h
  rw [sub_self, abs_zero] at this
  have := abs_nonpos_iff.1 this
  linarith

theorem zero : F.rnd 0 = 0 := F.exact grid_zero

theorem mono {x y : ℚ} (h : x ≤ y) : F.rnd x ≤ F.rnd y := by
  rcases eq_or_lt_of_le h with rfl | h
  · exact le_refl _
  · by_contra hc
    push Not at hc
    have h1 := F.nearest x (F.rnd y) (F.grid y)
    have h2 := F.nearest y (F.rnd x) (F.grid x)
    rcases abs_cases (F.rnd x - x) with ⟨a1, b1⟩ | ⟨a1, b1⟩ <;> rcases abs_cases (F.rnd y - x) with ⟨a2, b2⟩ | ⟨a2, b2⟩ <;>
      rcases abs_cases (F.rnd y - y) with ⟨a3, b3⟩ | ⟨a3, b3⟩ <;> rcases abs_cases (F.rnd x - y) with ⟨a4, b4⟩ | ⟨a4, b4⟩ <;>
      rw [a1, a2] at h1 <;> rw [a3, a4] at h2 <;> linarith

theorem le_of_grid {x y : ℚ} (h : Grid y) (hx : x ≤ y) : F.rnd x ≤ y := by
  rw [← F.exact h]; exact F.mono hx

theorem ge_of_grid {x y : ℚ} (h : Grid y) (hx : y ≤ x) : y ≤ F.rnd x := by
  rw [← F.exact h]; exact F.mono hx

theorem nonneg {x : ℚ} (h : 0 ≤ x) : 0 ≤ F.rnd x := F.ge_of_grid grid_zero h

end Rounding

theorem log_ge {x : ℚ} (h : (2 : ℚ) ^ (-1022 : ℤ) ≤ |x|) : -1022 ≤ Int.log 2 |x| := by
  have hx : 0 < |x| := lt_of_lt_of_le (zpow_pos (by norm_num) _) h
  have := (Int.zpow_le_iff_le_log (b := 2) (by norm_num) hx (x := -1022)).1 (by exact_mod_cast h)
  exact this

/-- In the normal range the result with unlimited exponents is on the grid. -/
theorem ieee_grid {x : ℚ} (h : (2 : ℚ) ^ (-1022 : ℤ) ≤ |x|) : Grid (ieeeRnd x) := by
  have hx : x ≠ 0 := by
    rintro rfl
    rw [abs_zero] at h
    exact absurd h (not_le.2 (zpow_pos (by norm_num) _))
  have hl := log_ge h
  have hu := Verif.Flt.ulp_pos x
  refine ⟨rne (x / ulp x), Int.log 2 |x| - 52, ?_, by omega, by rw [ieeeRnd, if_neg hx]; rfl⟩
  have h3 : |x / ulp x| < 2 ^ 53 := by
    rw [abs_div, abs_of_pos hu, div_lt_iff₀ hu]; exact (Verif.Flt.ulp_bounds hx).2
  have h4 := Verif.Flt.rne_nearest (x / ulp x) (round (x / ulp x))
  have h4' := abs_sub_round (x / ulp x)
  rw [abs_sub_comm] at h4'
  have h5 := abs_sub_abs_le_abs_sub (rne (x / ulp x) : ℚ) (x / ulp x)
  have h6 : |(rne (x / ulp x) : ℚ)| < 2 ^ 53 + 1 := by linarith
  have h7 : |rne (x / ulp x)| < 2 ^ 53 + 1 := by exact_mod_cast h6
  omega

/-- The relative error in the normal range. -/
theorem Rounding.err (F : Rounding) {x : ℚ} (h : (2 : ℚ) ^ (-1022 : ℤ) ≤ |x|) : |F.rnd x - x| ≤ |x| / 2 ^ 53 :=
  (F.nearest x _ (ieee_grid h)).trans (Verif.Flt.Rounding.err Verif.Flt.ieee x)

/-- The relative error for multiples of the smallest number. -/
theorem Rounding.err_mult (F : Rounding) {x : ℚ} (h : Mult x) : |F.rnd x - x| ≤ |x| / 2 ^ 53 := by
  rcases le_or_gt ((2 : ℚ) ^ (-1022 : ℤ)) |x| with h' | h'
  · exact F.err h'
  · rw [F.exact (mult_grid h h'.le), sub_self, abs_zero]
    positivity

/-! ## Round to nearest, ties to even -/

def ieeeFull (x : ℚ) : ℚ := if (2 : ℚ) ^ (-1022 : ℤ) ≤ |x| then ieeeRnd x else rne (x / 2 ^ (-1074 : ℤ)) * 2 ^ (-1074 : ℤ)

theorem rne_neg (q : ℚ) : rne (-q) = -rne q := by
  have hf0 := Int.fract_nonneg q
  have hf1 := Int.fract_lt_one q
  by_cases h0 : Int.fract q = 0
  · have hq : q = (⌊q⌋ : ℤ) := by
      have := Int.floor_add_fract q
      linarith
    have h1 : Int.fract (-q) = 0 := by rw [hq, ← Int.cast_neg, Int.fract_intCast]
    have h2 : ⌊-q⌋ = -⌊q⌋ := by
      have := Int.floor_add_fract (-q)
      rw [h1, add_zero] at this
      have h3 : ((⌊-q⌋ : ℤ) : ℚ) = ((-⌊q⌋ : ℤ) : ℚ) := by push_cast; rw [this]; linarith
      exact_mod_cast h3
    unfold rne
    rw [h0, h1, if_pos (by norm_num), if_pos (by norm_num), h2]
  · have h1 : Int.fract (-q) = 1 - Int.fract q := Int.fract_neg h0
    have h2 : ⌊-q⌋ = -⌊q⌋ - 1 := by
      have a := Int.floor_add_fract (-q)
      have b := Int.floor_add_fract q
      rw [h1] at a
      have h3 : ((⌊-q⌋ : ℤ) : ℚ) = ((-⌊q⌋ - 1 : ℤ) : ℚ) := by push_cast; linarith
      exact_mod_cast h3
    unfold rne
    rw [h1, h2]
    split
    · rename_i h
      rw [if_neg (by linarith), if_pos (by linarith)]; omega
    · split
      · rename_i h h'
        rw [if_pos (by linarith)]; omega
      · rename_i h h'
        have hd : Int.fract q = 1 / 2 := by linarith
        have hn : ¬ ((1 : ℚ) / 2 < 1 / 2) := lt_irrefl _
        rw [hd]
        simp only [if_neg hn]
        split <;> split <;> omega

theorem ulp_neg (x : ℚ) : ulp (-x) = ulp x := by unfold ulp; rw [abs_neg]

theorem ieeeFull_odd (x : ℚ) : ieeeFull (-x) = -ieeeFull x := by
  unfold ieeeFull
  rw [abs_neg]
  split
  · unfold ieeeRnd
    by_cases h : x = 0
    · simp [h]
    · rw [if_neg (by simpa using h), if_neg h, ulp_neg, neg_div, rne_neg]
      push_cast; ring
  · rw [neg_div, rne_neg]
    push_cast; ring

theorem ieeeFull_small_near {x : ℚ} (m : ℤ) : |(rne (x / 2 ^ (-1074 : ℤ)) : ℚ) * 2 ^ (-1074 : ℤ) - x| ≤ |(m : ℚ) * 2 ^ (-1074 : ℤ) - x| := by
  have hu := tiny_pos
  generalize hg : (2 : ℚ) ^ (-1074 : ℤ) = u at *
  have h1 := Verif.Flt.rne_nearest (x / u) m
  have e : ∀ k : ℤ, |(k : ℚ) * u - x| = |(k : ℚ) - x / u| * u := by
    intro k
    have : (k : ℚ) * u - x = (k - x / u) * u := by field_simp
    rw [this, abs_mul, abs_of_pos hu]
  rw [e, e]
  exact mul_le_mul_of_nonneg_right h1 hu.le

theorem ieeeFull_grid (x : ℚ) : Grid (ieeeFull x) := by
  unfold ieeeFull
  split
  · rename_i h; exact ieee_grid h
  · rename_i h
    push Not at h
    apply mult_grid ⟨_, rfl⟩
    -- the bound is a multiple, too
    by_contra hc
    push Not at hc
    have hb := ieeeFull_small_near (x := x) (2 ^ 52)
    have hb' := ieeeFull_small_near (x := x) (-2 ^ 52)
    push_cast at hb hb'
    have e52 := tiny_52
    generalize (2 : ℚ) ^ (-1074 : ℤ) = u at *
    generalize (rne (x / u) : ℚ) * u = r at *
    rw [e52] at h hc
    obtain ⟨h1, h2⟩ := abs_lt.1 h
    rcases lt_abs.1 hc with hc | hc
    · rw [abs_of_nonneg (by linarith), abs_of_nonneg (by linarith)] at hb
      linarith
    · rw [abs_of_nonpos (by linarith), abs_of_nonpos (by linarith)] at hb'
      linarith

theorem ieeeFull_nearest (x y : ℚ) (hy : Grid y) : |ieeeFull x - x| ≤ |y - x| := by
  unfold ieeeFull
  split
  · exact Verif.Flt.ieee_nearest x y (grid_double hy)
  · obtain ⟨k, rfl⟩ := grid_mult hy
    exact ieeeFull_small_near k

/-- The rounding of processors. -/
def ieee : Rounding := ⟨ieeeFull, ieeeFull_grid, ieeeFull_nearest, ieeeFull_odd⟩

end Verif.Dbl
