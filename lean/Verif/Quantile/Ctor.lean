import Verif.Quantile.Bound

/-! # The sizes the public constructor picks -/

namespace Verif.Quantile

open Verif

/-- One rounding, up or down. -/
def w : Rat := 1 + 1 / 2 ^ 52

theorem w_pos : (0 : Rat) < w := by norm_num [w]
theorem w_ge : (1 : Rat) ≤ w := by norm_num [w]
theorem wpow_pos (c : Nat) : (0 : Rat) < w ^ c := pow_pos w_pos c
theorem wpow_ge (c : Nat) : (1 : Rat) ≤ w ^ c := one_le_pow₀ w_ge

/-- `x` is `y` after at most `c` roundings. -/
structure Near (c : Nat) (x y : Rat) : Prop where
  pos : 0 < y
  up : x ≤ y * w ^ c
  down : y ≤ x * w ^ c

namespace Near

theorem xpos {c : Nat} {x y : Rat} (h : Near c x y) : 0 < x := by
  by_contra hn
  have h1 := h.down
  have h2 := h.pos
  have := mul_nonpos_of_nonpos_of_nonneg (not_lt.1 hn) (le_of_lt (wpow_pos c))
  linarith

theorem refl {y : Rat} (h : 0 < y) : Near 0 y y := ⟨h, by simp, by simp⟩

theorem mono {c d : Nat} {x y : Rat} (h : Near c x y) (hd : c ≤ d) : Near d x y := by
  have hw : w ^ c ≤ w ^ d := pow_le_pow_right₀ w_ge hd
  exact ⟨h.pos, le_trans h.up (mul_le_mul_of_nonneg_left hw (le_of_lt h.pos)), le_trans h.down (mul_le_mul_of_nonneg_left hw (le_of_lt h.xpos))⟩

theorem mul {c d : Nat} {x y x' y' : Rat} (h : Near c x y) (h' : Near d x' y') : Near (c + d) (x * x') (y * y') := by
  refine ⟨mul_pos h.pos h'.pos, ?_, ?_⟩
  · calc x * x' ≤ (y * w ^ c) * (y' * w ^ d) := mul_le_mul h.up h'.up (le_of_lt h'.xpos) (le_of_lt (mul_pos h.pos (wpow_pos c)))
      _ = _ := by rw [pow_add]; ring
  · calc y * y' ≤ (x * w ^ c) * (x' * w ^ d) := mul_le_mul h.down h'.down (le_of_lt h'.pos) (le_of_lt (mul_pos h.xpos (wpow_pos c)))
      _ = _ := by rw [pow_add]; ring

theorem div {c d : Nat} {x y x' y' : Rat} (h : Near c x y) (h' : Near d x' y') : Near (c + d) (x / x') (y / y') := by
  refine ⟨div_pos h.pos h'.pos, ?_, ?_⟩
  · rw [div_le_iff₀ h'.xpos, pow_add]
    have h1 : x * y' ≤ (y * w ^ c) * (x' * w ^ d) := mul_le_mul h.up h'.down (le_of_lt h'.pos) (le_of_lt (mul_pos h.pos (wpow_pos c)))
    have h2 : y / y' * (w ^ c * w ^ d) * x' = (y * w ^ c) * (x' * w ^ d) / y' := by field_simp [ne_of_gt h'.pos]
    rw [h2, le_div_iff₀ h'.pos]
    exact h1
  · rw [div_le_iff₀ h'.pos, pow_add]
    have h1 : y * x' ≤ (x * w ^ c) * (y' * w ^ d) := mul_le_mul h.down h'.up (le_of_lt h'.xpos) (le_of_lt (mul_pos h.xpos (wpow_pos c)))
    have h2 : x / x' * (w ^ c * w ^ d) * y' = (x * w ^ c) * (y' * w ^ d) / x' := by field_simp [ne_of_gt h'.xpos]
    rw [h2, le_div_iff₀ h'.xpos]
    exact h1

theorem rnd (R : Flt.Rounding) {c : Nat} {x y : Rat} (h : Near c x y) : Near (c + 1) (R.rnd x) y := by
  have hx := h.xpos
  have e := R.err x
  rw [abs_of_pos hx, abs_le] at e
  have h1 : R.rnd x ≤ x * w := by
    have : x * w = x + x / 2 ^ 52 := by unfold w; ring
    rw [this]
    have : x / 2 ^ 53 ≤ x / 2 ^ 52 := by gcongr <;> norm_num
    linarith [e.2]
  have h2 : x ≤ R.rnd x * w := by
    have : x - x / 2 ^ 53 ≤ R.rnd x := by linarith [e.1]
    have h3 : (x - x / 2 ^ 53) * w ≤ R.rnd x * w := mul_le_mul_of_nonneg_right this (le_of_lt w_pos)
    have h4 : x ≤ (x - x / 2 ^ 53) * w := by
      have : (x - x / 2 ^ 53) * w = x * ((1 - 1 / 2 ^ 53) * w) := by ring
      rw [this]
      have : (1 : Rat) ≤ (1 - 1 / 2 ^ 53) * w := by norm_num [w]
      nlinarith
    linarith
  refine ⟨h.pos, ?_, ?_⟩
  · rw [pow_succ, ← mul_assoc]
    exact le_trans h1 (mul_le_mul_of_nonneg_right h.up (le_of_lt w_pos))
  · rw [pow_succ, mul_comm (w ^ c), ← mul_assoc]
    exact le_trans h.down (mul_le_mul_of_nonneg_right h2 (le_of_lt (wpow_pos c)))

theorem bounds {c : Nat} {x y : Rat} (h : Near c x y) (hc : c ≤ 250) : x ≤ y * (1 + 1 / 10 ^ 12) ∧ y * (1 - 1 / 10 ^ 12) ≤ x := by
  have h := h.mono hc
  have hw : w ^ 250 ≤ 1 + 1 / 10 ^ 12 := by norm_num [w]
  refine ⟨le_trans h.up (mul_le_mul_of_nonneg_left hw (le_of_lt h.pos)), ?_⟩
  have h1 : y ≤ x * (1 + 1 / 10 ^ 12) := le_trans h.down (mul_le_mul_of_nonneg_left hw (le_of_lt h.xpos))
  have h2 : y * (1 - 1 / 10 ^ 12) ≤ x * (1 + 1 / 10 ^ 12) * (1 - 1 / 10 ^ 12) := mul_le_mul_of_nonneg_right h1 (by norm_num)
  have h3 : x * (1 + 1 / 10 ^ 12) * (1 - 1 / 10 ^ 12) ≤ x := by
    have : x * (1 + 1 / 10 ^ 12) * (1 - 1 / 10 ^ 12) = x - x / 10 ^ 24 := by ring
    rw [this]
    have := h.xpos
    have : 0 < x / 10 ^ 24 := by positivity
    linarith
  linarith

end Near

variable (R : Flt.Rounding)

theorem near_fact : ∀ n, Near n (dfact R.rnd n) (n.factorial : Rat)
  | 0 => by simpa [dfact] using Near.refl (y := 1) (by norm_num)
  | 1 => by simpa [dfact] using (Near.refl (y := 1) (by norm_num)).mono (d := 1) (by omega)
  | n + 2 => by
    have h := ((near_fact (n + 1)).mul (Near.refl (y := ((n + 2 : Nat) : Rat)) (by positivity))).rnd R
    rw [dfact]
    have e : ((n + 2).factorial : Rat) = ((n + 1).factorial : Rat) * ((n + 2 : Nat) : Rat) := by
      rw [Nat.factorial_succ (n + 1)]; push_cast; ring
    rw [e]
    exact h

theorem near_choose {b a : Nat} (h : a ≤ b) : Near (2 * b + 2) (dchoose R.rnd b a) (b.choose a : Rat) := by
  have h1 := ((near_fact R b).div (((near_fact R (b - a)).mul (near_fact R a)).rnd R)).rnd R
  have e : (b.choose a : Rat) = (b.factorial : Rat) / ((b - a).factorial * a.factorial) := by
    have := Nat.choose_mul_factorial_mul_factorial h
    have q : (b.choose a : Rat) * a.factorial * (b - a).factorial = b.factorial := by exact_mod_cast this
    rw [eq_div_iff (by positivity)]
    linarith
  rw [e]
  exact h1.mono (by omega)

/-- The bound of the paper. -/
def vx (b h : Nat) : Rat := ((h - 2 : Nat) : Rat) * (b + h - 2).choose (h - 1) - (b + h - 3).choose (h - 3) + (b + h - 3).choose (h - 2)

theorem binom_parts (b l : Nat) (hb : 1 ≤ b) (hl : 1 ≤ l) :
    ((b + l).choose (l + 1) : Rat) = (b + l) * (b + l - 1).choose l / (l + 1) ∧ ((b + l - 1).choose (l - 1) : Rat) = (b + l - 1).choose l * l / b := by
  obtain ⟨c, rfl⟩ : ∃ c, b = c + 1 := ⟨b - 1, by omega⟩
  obtain ⟨j, rfl⟩ : ∃ j, l = j + 1 := ⟨l - 1, by omega⟩
  have g1 : (c + 1 + j + 1) * (c + 1 + j).choose (j + 1) = (c + 1 + j + 1).choose (j + 1 + 1) * (j + 1 + 1) := Nat.add_one_mul_choose_eq _ _
  have g2 : (c + 1 + j).choose (j + 1) * (j + 1) = (c + 1 + j).choose j * (c + 1 + j - j) := Nat.choose_succ_right_eq _ _
  rw [show c + 1 + j - j = c + 1 by omega] at g2
  rw [show c + 1 + (j + 1) - 1 = c + 1 + j by omega, show j + 1 - 1 = j by omega, show c + 1 + (j + 1) = c + 1 + j + 1 by omega]
  have q1 : ((c : Rat) + 1 + j + 1) * (c + 1 + j).choose (j + 1) = (c + 1 + j + 1).choose (j + 1 + 1) * (j + 1 + 1) := by exact_mod_cast g1
  have q2 : ((c + 1 + j).choose (j + 1) : Rat) * (j + 1) = (c + 1 + j).choose j * (c + 1) := by exact_mod_cast g2
  push_cast
  constructor
  · field_simp; linarith
  · field_simp; linarith

/-- How the parts of the bound compare. -/
theorem vx_parts (b l : Nat) (hb : 2 ≤ b) (hl : 1 ≤ l) (hb' : b ≤ 29) (hl' : l ≤ 38) :
    ((b + l - 1).choose (l - 1) : Rat) ≤ l * (b + l).choose (l + 1) ∧ ((b + l - 1).choose l : Rat) ≤ l * (b + l).choose (l + 1) ∧
      (l : Rat) * (b + l).choose (l + 1) ≤ 2 * (l * (b + l).choose (l + 1) - (b + l - 1).choose (l - 1) + (b + l - 1).choose l) ∧
      (1 + 1 / 10 ^ 4) * (ratio b l * (b + l).choose (l + 1)) ≤ l * (b + l).choose (l + 1) - (b + l - 1).choose (l - 1) + (b + l - 1).choose l := by
  obtain ⟨e1, e2⟩ := binom_parts b l (by omega) hl
  have hX : (0 : Rat) < (b + l - 1).choose l := by exact_mod_cast Nat.choose_pos (by omega)
  rw [e1, e2]
  generalize ((b + l - 1).choose l : Rat) = X at *
  have qb : (2 : Rat) ≤ b := by exact_mod_cast hb
  have ql : (1 : Rat) ≤ l := by exact_mod_cast hl
  have qb' : (b : Rat) ≤ 29 := by exact_mod_cast hb'
  have ql' : (l : Rat) ≤ 38 := by exact_mod_cast hl'
  unfold ratio
  generalize (b : Rat) = b at *
  generalize (l : Rat) = l at *
  have hb0 : 0 < b := by linarith
  have hl1 : 0 < l + 1 := by linarith
  have hbl : 0 < b + l - 1 := by linarith
  have c1 : X * l / b ≤ l * ((b + l) * X / (l + 1)) := by
    have : l * ((b + l) * X / (l + 1)) - X * l / b = X * l * ((b * (b + l) - (l + 1)) / (b * (l + 1))) := by field_simp
    have h : 0 ≤ X * l * ((b * (b + l) - (l + 1)) / (b * (l + 1))) := by
      refine mul_nonneg (by positivity) (div_nonneg (by nlinarith) (by positivity))
    linarith
  have c2 : X ≤ l * ((b + l) * X / (l + 1)) := by
    have : l * ((b + l) * X / (l + 1)) - X = X * ((l * (b + l) - (l + 1)) / (l + 1)) := by field_simp
    have h : 0 ≤ X * ((l * (b + l) - (l + 1)) / (l + 1)) := mul_nonneg (le_of_lt hX) (div_nonneg (by nlinarith) (by positivity))
    linarith
  refine ⟨c1, c2, ?_, ?_⟩
  · have : 2 * (l * ((b + l) * X / (l + 1)) - X * l / b + X) - l * ((b + l) * X / (l + 1)) =
        X * ((l * (b * (b + l) - 2 * (l + 1)) + 2 * b * (l + 1)) / (b * (l + 1))) := by field_simp; ring
    have h : 0 ≤ X * ((l * (b * (b + l) - 2 * (l + 1)) + 2 * b * (l + 1)) / (b * (l + 1))) :=
      mul_nonneg (le_of_lt hX) (div_nonneg (by nlinarith [mul_nonneg (show 0 ≤ l by linarith) (show 0 ≤ b * (b + l) - 2 * (l + 1) + 2 by nlinarith)]) (by positivity))
    linarith
  · have s1 : l * ((b + l) * X / (l + 1)) - X * l / b + X - (l - l * (l - 1) / (b * (b + l - 1))) * ((b + l) * X / (l + 1)) - X / (l + 1) =
        X * (((b - 1) * (b * l + l * l - l) - b * l) / (b * (b + l - 1) * (l + 1))) := by field_simp; ring
    have s2 : 0 ≤ X * (((b - 1) * (b * l + l * l - l) - b * l) / (b * (b + l - 1) * (l + 1))) := by
      refine mul_nonneg (le_of_lt hX) (div_nonneg ?_ (by positivity))
      have : 0 ≤ (b - 2) * (b * l + l * l - l) := mul_nonneg (by linarith) (by nlinarith)
      nlinarith
    have s3 : (l - l * (l - 1) / (b * (b + l - 1))) * ((b + l) * X / (l + 1)) ≤ 67 * X := by
      have t1 : 0 ≤ l * (l - 1) / (b * (b + l - 1)) * ((b + l) * X / (l + 1)) := by
        refine mul_nonneg (div_nonneg (mul_nonneg (by linarith) (by linarith)) (by positivity)) (by positivity)
      have t2 : l * ((b + l) * X / (l + 1)) ≤ 67 * X := by
        have : l * ((b + l) * X / (l + 1)) = (l / (l + 1)) * ((b + l) * X) := by field_simp
        rw [this]
        have u1 : l / (l + 1) ≤ 1 := by rw [div_le_one hl1]; linarith
        have u2 : (b + l) * X ≤ 67 * X := mul_le_mul_of_nonneg_right (by linarith) (le_of_lt hX)
        have u3 : 0 ≤ (b + l) * X := by positivity
        nlinarith
      linarith [sub_mul l (l * (l - 1) / (b * (b + l - 1))) ((b + l) * X / (l + 1))]
    have s4 : X / 39 ≤ X / (l + 1) := div_le_div_of_nonneg_left (le_of_lt hX) hl1 (by linarith)
    generalize (l - l * (l - 1) / (b * (b + l - 1))) * ((b + l) * X / (l + 1)) = T at *
    linarith

theorem near_paperV (b h : Nat) (hb : 2 ≤ b) (hb' : b ≤ 29) (hh : 3 ≤ h) (hh' : h ≤ 40) :
    0 < vx b h ∧ paperV R.rnd b h ≤ vx b h * (1 + 1 / 10 ^ 10) ∧ vx b h * (1 - 1 / 10 ^ 10) ≤ paperV R.rnd b h := by
  obtain ⟨l, rfl⟩ : ∃ l, h = l + 2 := ⟨h - 2, by omega⟩
  have n1 := near_choose R (b := b + l) (a := l + 1) (by omega)
  have n2 := near_choose R (b := b + l - 1) (a := l - 1) (by omega)
  have n3 := near_choose R (b := b + l - 1) (a := l) (by omega)
  have hlq : (0 : Rat) < ((l : Nat) : Rat) := by exact_mod_cast (by omega : 0 < l)
  have n4 := ((Near.refl hlq).mul n1).rnd R
  obtain ⟨p1, p2, p3, _⟩ := vx_parts b l hb (by omega) hb' (by omega)
  unfold paperV vx
  rw [show b + (l + 2) - 2 = b + l by omega, show l + 2 - 1 = l + 1 by omega, show b + (l + 2) - 3 = b + l - 1 by omega, show l + 2 - 3 = l - 1 by omega,
    show l + 2 - 2 = l by omega]
  have y1 := n4.bounds (by omega)
  have y2 := n2.bounds (by omega)
  have y3 := n3.bounds (by omega)
  have z1 := n4.xpos
  have z2 := n2.xpos
  have z3 := n3.xpos
  have x1 := n4.pos
  have x2 := n2.pos
  have x3 := n3.pos
  generalize R.rnd (((l : Nat) : Rat) * dchoose R.rnd (b + l) (l + 1)) = s at *
  generalize dchoose R.rnd (b + l - 1) (l - 1) = t at *
  generalize dchoose R.rnd (b + l - 1) l = u at *
  generalize ((l : Nat) : Rat) * ((b + l).choose (l + 1) : Rat) = A at *
  generalize ((b + l - 1).choose (l - 1) : Rat) = B at *
  generalize ((b + l - 1).choose l : Rat) = D at *
  have e1 := R.err (s - t)
  have a1 : |s - t| ≤ 4 * A := by
    rw [abs_le]; constructor <;> norm_num at y1 y2 ⊢ <;> linarith
  have b1 : |R.rnd (s - t) - (s - t)| ≤ 4 * A / 2 ^ 53 := le_trans e1 (by rw [div_le_div_iff_of_pos_right (by norm_num)]; exact a1)
  generalize R.rnd (s - t) = st at *
  rw [abs_le] at b1 a1
  have e2 := R.err (st + u)
  have a2 : |st + u| ≤ 8 * A := by
    rw [abs_le]; constructor <;> norm_num at y3 b1 ⊢ <;> linarith [b1.1, b1.2, a1.1, a1.2]
  have b2 : |R.rnd (st + u) - (st + u)| ≤ 8 * A / 2 ^ 53 := le_trans e2 (by rw [div_le_div_iff_of_pos_right (by norm_num)]; exact a2)
  generalize R.rnd (st + u) = v at *
  rw [abs_le] at b2
  norm_num at b1 b2 y1 y2 y3 ⊢
  refine ⟨by linarith, ?_, ?_⟩ <;> linarith [b1.1, b1.2, b2.1, b2.2, y1.1, y1.2, y2.1, y2.2, y3.1, y3.2]

end Verif.Quantile
