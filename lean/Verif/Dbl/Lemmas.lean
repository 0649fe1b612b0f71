import Verif.Dbl.Model

/-! # Lemmas about Double -/

namespace Verif.Dbl

variable (F : Rounding)

theorem abs_fin (q : ℚ) : abs (.fin q) = .fin |q| := by
  unfold abs
  by_cases h : q < 0
  · simp [lt, h, neg, abs_of_neg h]
  · simp [lt, h, abs_of_nonneg (not_lt.1 h)]

theorem abs_inf (s : Bool) : abs (.inf s) = .inf false := by cases s <;> rfl

theorem abs_nan : abs .nan = .nan := rfl

theorem abs_ofQ (q : ℚ) : abs (ofQ F q) = if |F.rnd q| < 2 ^ 1024 then .fin |F.rnd q| else .inf false := by
  unfold ofQ
  split
  · rw [abs_fin]
  · rw [abs_inf]

theorem abs_ofQ_neg (q : ℚ) : abs (ofQ F (-q)) = abs (ofQ F q) := by rw [abs_ofQ, abs_ofQ, F.odd, abs_neg]

theorem abs_sub_comm' (a b : Val) : abs (sub F a b) = abs (sub F b a) := by
  cases a with
  | nan => cases b <;> rfl
  | inf s =>
    cases b with
    | nan => rfl
    | inf t => cases s <;> cases t <;> rfl
    | fin q => simp [sub, abs_inf]
  | fin p =>
    cases b with
    | nan => rfl
    | inf t => simp [sub, abs_inf]
    | fin q =>
      show abs (ofQ F (p - q)) = abs (ofQ F (q - p))
      rw [show q - p = -(p - q) by ring, abs_ofQ_neg]

theorem min_fin (x y : ℚ) : min (.fin x) (.fin y) = .fin (Min.min x y) := by
  unfold min
  by_cases h : y < x
  · simp [lt, h, min_eq_right h.le]
  · simp [lt, h, min_eq_left (not_lt.1 h)]

theorem min_comm' {x y : Val} (hx : x ≠ .nan) (hy : y ≠ .nan) : min x y = min y x := by
  cases x with
  | nan => exact absurd rfl hx
  | inf s => cases y with
    | nan => exact absurd rfl hy
    | inf t => cases s <;> cases t <;> rfl
    | fin q => cases s <;> rfl
  | fin p => cases y with
    | nan => exact absurd rfl hy
    | inf t => cases t <;> rfl
    | fin q => rw [min_fin, min_fin, min_comm]

theorem abs_ne_nan {x : Val} (h : x ≠ .nan) : abs x ≠ .nan := by
  cases x with
  | nan => exact absurd rfl h
  | inf s => rw [abs_inf]; simp
  | fin q => rw [abs_fin]; simp

theorem eq_nan_left (e b : Val) : eq F e .nan b = false := by
  by_cases h : same (min .nan (abs b)) (.fin 0) = true <;> simp [eq, sub, abs_nan, div, lt, h]

theorem eq_nan_right (e a : Val) : eq F e a .nan = false := by
  have : sub F a .nan = .nan := by cases a <;> rfl
  simp only [eq, this, abs_nan, div, lt, ite_self]

theorem eq_symm (e a b : Val) : eq F e a b = eq F e b a := by
  by_cases ha : a = .nan
  · rw [ha, eq_nan_left, eq_nan_right]
  · by_cases hb : b = .nan
    · rw [hb, eq_nan_left, eq_nan_right]
    · unfold eq
      rw [abs_sub_comm' F a b, min_comm' (abs_ne_nan ha) (abs_ne_nan hb)]

theorem ofQ_zero : ofQ F 0 = .fin 0 := by
  unfold ofQ
  rw [F.zero, abs_zero, if_pos (by norm_num)]

theorem eq_self (e : Val) (he : lt (.fin 0) e = true) (q : ℚ) : eq F e (.fin q) (.fin q) = true := by
  have h1 : abs (sub F (.fin q) (.fin q)) = .fin 0 := by
    show abs (ofQ F (q - q)) = _
    rw [sub_self, ofQ_zero, abs_fin, abs_zero]
  have h2 : min (abs (.fin q)) (abs (.fin q)) = .fin |q| := by rw [abs_fin, min_fin, min_self]
  unfold eq
  rw [h1, h2]
  by_cases h : |q| = 0
  · simp [same, h, he]
  · have : div F (.fin 0) (.fin |q|) = .fin 0 := by simp only [div, if_neg h, zero_div, ofQ_zero]
    simp [same, this, he]

/-- No infinity is equal to itself. -/
theorem eq_inf (e : Val) (s : Bool) : eq F e (.inf s) (.inf s) = false := by
  simp [eq, sub, abs_nan, div, lt]

theorem lt_asymm {a b : Val} (h : lt a b = true) : lt b a = false := by
  cases a with
  | nan => cases h
  | inf s => cases b with
    | nan => cases h
    | inf t => cases s <;> cases t <;> simp_all [lt]
    | fin q => cases s <;> simp_all [lt]
  | fin p => cases b with
    | nan => cases h
    | inf t => cases t <;> simp_all [lt]
    | fin q => simp only [lt, decide_eq_true_eq, decide_eq_false_iff_not] at h ⊢; exact not_lt.2 h.le

theorem lt_total {a b : Val} (ha : a ≠ .nan) (hb : b ≠ .nan) (h1 : lt a b = false) (h2 : lt b a = false) : a = b := by
  cases a with
  | nan => exact absurd rfl ha
  | inf s => cases b with
    | nan => exact absurd rfl hb
    | inf t => cases s <;> cases t <;> simp_all [lt]
    | fin q => cases s <;> simp_all [lt]
  | fin p => cases b with
    | nan => exact absurd rfl hb
    | inf t => cases t <;> simp_all [lt]
    | fin q =>
      simp only [lt, decide_eq_false_iff_not] at h1 h2
      rw [le_antisymm (not_lt.1 h2) (not_lt.1 h1)]

theorem ok_grid {q : ℚ} (h : (Val.fin q).Ok) : Grid q := h.1

/-- The comparison of two numbers that are not zero. -/
theorem eq_fin {a b ε : ℚ} (ha : a ≠ 0) (hb : b ≠ 0) :
    eq F (.fin ε) (.fin a) (.fin b) = true ↔
      |F.rnd (a - b)| < 2 ^ 1024 ∧ |F.rnd (|F.rnd (a - b)| / Min.min |a| |b|)| < 2 ^ 1024 ∧ F.rnd (|F.rnd (a - b)| / Min.min |a| |b|) < ε := by
  have hm : 0 < Min.min |a| |b| := lt_min (abs_pos.2 ha) (abs_pos.2 hb)
  have h2 : min (abs (.fin a)) (abs (.fin b)) = .fin (Min.min |a| |b|) := by rw [abs_fin, abs_fin, min_fin]
  have h3 : same (.fin (Min.min |a| |b|)) (.fin 0) = false := by simp only [same, decide_eq_false_iff_not]; exact hm.ne'
  unfold eq
  simp only [h2, h3, Bool.false_eq_true, if_false]
  rw [show sub F (.fin a) (.fin b) = ofQ F (a - b) from rfl, abs_ofQ]
  by_cases hd : |F.rnd (a - b)| < 2 ^ 1024
  · rw [if_pos hd]
    simp only [div, if_neg hm.ne', hd, true_and]
    unfold ofQ
    by_cases hq : |F.rnd (|F.rnd (a - b)| / Min.min |a| |b|)| < 2 ^ 1024
    · rw [if_pos hq]
      simp only [lt, decide_eq_true_eq, hq, true_and]
    · rw [if_neg hq]
      have hn : 0 ≤ F.rnd (|F.rnd (a - b)| / Min.min |a| |b|) := F.nonneg (by positivity)
      simp only [lt, hq, false_and, iff_false, decide_eq_false (not_lt.2 hn)]
      simp
  · rw [if_neg hd]
    simp [div, lt, hd]

theorem sub_err {a b : ℚ} (ha : Grid a) (hb : Grid b) : |a - b| * (1 - 1 / 2 ^ 53) ≤ |F.rnd (a - b)| ∧ |F.rnd (a - b)| ≤ |a - b| * (1 + 1 / 2 ^ 53) := by
  have h := F.err_mult (mult_sub (grid_mult ha) (grid_mult hb))
  have h1 := abs_sub_abs_le_abs_sub (F.rnd (a - b)) (a - b)
  have h2 := abs_sub_abs_le_abs_sub (a - b) (F.rnd (a - b))
  rw [abs_sub_comm (a - b) (F.rnd (a - b))] at h2
  constructor <;> linarith

theorem quot_lo {y : ℚ} (hy : 0 ≤ y) : y * (1 - 1 / 2 ^ 53) ≤ F.rnd y ∨ y < 2 ^ (-1022 : ℤ) := by
  rcases le_or_gt ((2 : ℚ) ^ (-1022 : ℤ)) y with h | h
  · left
    have := F.err (x := y) (by rwa [abs_of_nonneg hy])
    rw [abs_of_nonneg hy] at this
    have := (abs_le.1 this).1
    linarith
  · exact .inr h

theorem quot_hi {y : ℚ} (hy : 0 ≤ y) : F.rnd y ≤ y * (1 + 1 / 2 ^ 53) ∨ F.rnd y ≤ 2 ^ (-1022 : ℤ) := by
  rcases le_or_gt ((2 : ℚ) ^ (-1022 : ℤ)) y with h | h
  · left
    have := F.err (x := y) (by rwa [abs_of_nonneg hy])
    rw [abs_of_nonneg hy] at this
    have := (abs_le.1 this).2
    linarith
  · exact .inr (F.le_of_grid (grid_pow _ (by norm_num)) h.le)

/-- Equality means a small difference. -/
theorem eq_close {a b ε : ℚ} (ha : a ≠ 0) (hb : b ≠ 0) (ga : Grid a) (gb : Grid b) (hε : (2 : ℚ) ^ (-1022 : ℤ) < ε)
    (h : eq F (.fin ε) (.fin a) (.fin b) = true) : |a - b| * (1 - 1 / 2 ^ 53) ^ 2 < ε * Min.min |a| |b| := by
  have hm : 0 < Min.min |a| |b| := lt_min (abs_pos.2 ha) (abs_pos.2 hb)
  obtain ⟨_, _, h3⟩ := (eq_fin F ha hb).1 h
  obtain ⟨h4, _⟩ := sub_err F ga gb
  have h5 := quot_lo F (y := |F.rnd (a - b)| / Min.min |a| |b|) (by positivity)
  generalize Min.min |a| |b| = m at *
  generalize |F.rnd (a - b)| = d at *
  generalize F.rnd (d / m) = r at *
  have hx : 0 ≤ |a - b| := abs_nonneg _
  generalize |a - b| = x at *
  generalize (2 : ℚ) ^ (-1022 : ℤ) = tiny at *
  have hu : (0 : ℚ) < 1 - 1 / 2 ^ 53 ∧ (1 : ℚ) - 1 / 2 ^ 53 ≤ 1 := by norm_num
  generalize (1 : ℚ) - 1 / 2 ^ 53 = u at *
  have h6 : d * u < ε * m := by
    rcases h5 with h5 | h5
    · have : d / m * u < ε := lt_of_le_of_lt h5 h3
      rw [div_mul_eq_mul_div, div_lt_iff₀ hm] at this
      exact this
    · have h7 : d < ε * m := by
        have := lt_trans h5 hε
        rwa [div_lt_iff₀ hm] at this
      have hd : 0 ≤ d := le_trans (mul_nonneg hx hu.1.le) h4
      nlinarith
  have h7 := mul_le_mul_of_nonneg_right h4 hu.1.le
  calc x * u ^ 2 = x * u * u := by ring
    _ ≤ d * u := h7
    _ < ε * m := h6

/-- A small difference means equality. -/
theorem close_eq {a b ε : ℚ} (ha : a ≠ 0) (hb : b ≠ 0) (ga : (Val.fin a).Ok) (gb : (Val.fin b).Ok) (hε : (2 : ℚ) ^ (-1022 : ℤ) < ε) (h1 : ε ≤ 1)
    (h : |a - b| * (1 + 1 / 2 ^ 53) ^ 2 < ε * Min.min |a| |b|) : eq F (.fin ε) (.fin a) (.fin b) = true := by
  have hm : 0 < Min.min |a| |b| := lt_min (abs_pos.2 ha) (abs_pos.2 hb)
  have hmax : Min.min |a| |b| < 2 ^ 1024 := lt_of_le_of_lt (min_le_left _ _) ga.2
  obtain ⟨_, h4⟩ := sub_err F ga.1 gb.1
  have h5 := quot_hi F (y := |F.rnd (a - b)| / Min.min |a| |b|) (by positivity)
  have h6 : 0 ≤ F.rnd (|F.rnd (a - b)| / Min.min |a| |b|) := F.nonneg (by positivity)
  rw [eq_fin F ha hb, abs_of_nonneg h6]
  have hd : 0 ≤ |F.rnd (a - b)| := abs_nonneg _
  generalize Min.min |a| |b| = m at *
  generalize |F.rnd (a - b)| = d at *
  generalize F.rnd (d / m) = r at *
  have hx : 0 ≤ |a - b| := abs_nonneg _
  generalize |a - b| = x at *
  generalize (2 : ℚ) ^ (-1022 : ℤ) = tiny at *
  have hu : (1 : ℚ) ≤ 1 + 1 / 2 ^ 53 := by norm_num
  generalize (1 : ℚ) + 1 / 2 ^ 53 = u at *
  have h7 := mul_le_mul_of_nonneg_right h4 (le_trans zero_le_one hu)
  have h8 : d * u < ε * m := by
    calc d * u ≤ x * u * u := h7
      _ = x * u ^ 2 := by ring
      _ < ε * m := h
  have h9 : d < 2 ^ 1024 := by
    generalize (2 : ℚ) ^ 1024 = big at *
    have : d ≤ d * u := by nlinarith
    have : ε * m ≤ m := by nlinarith
    linarith
  have h10 : r < ε := by
    rcases h5 with h5 | h5
    · refine lt_of_le_of_lt h5 ?_
      rw [div_mul_eq_mul_div, div_lt_iff₀ hm]
      exact h8
    · exact lt_of_le_of_lt h5 hε
  have : (1 : ℚ) < 2 ^ 1024 := one_lt_pow₀ (by norm_num) (by norm_num)
  generalize (2 : ℚ) ^ 1024 = big at *
  exact ⟨h9, by linarith, h10⟩

/-- Beside zero the difference itself counts. -/
theorem eq_zero {a ε : ℚ} (ga : (Val.fin a).Ok) : eq F (.fin ε) (.fin a) (.fin 0) = true ↔ |a| < ε := by
  have h2 : min (abs (.fin a)) (abs (.fin 0)) = .fin 0 := by rw [abs_fin, abs_fin, min_fin, abs_zero, min_eq_right (abs_nonneg a)]
  have h3 : sub F (.fin a) (.fin 0) = .fin a := by
    show ofQ F (a - 0) = _
    rw [sub_zero, ofQ, F.exact ga.1, if_pos ga.2]
  unfold eq
  simp only [h2, h3]
  rw [if_pos (by simp [same]), abs_fin]
  simp only [lt, decide_eq_true_eq]

end Verif.Dbl
