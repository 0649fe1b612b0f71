import Verif.MathFn.Lemmas

/-! # C100: `inverseErf` and `inverseUnitNormalCDF` -/

namespace Verif.MathFn
open Verif.Flt
open D

/-- What the loop returns has passed its test. -/
theorem erfLoop_passed {R : Rounding} {L : Lib} {y upper lower : D} (fuel : Nat) {x y0 r : D} (h : erfLoop R L y upper lower fuel x y0 = some r) :
    lt upper (L.erf r) = false ∧ lt (L.erf r) lower = false := by
  induction fuel generalizing x y0 with
  | zero => simp [erfLoop] at h
  | succ n ih =>
    simp only [erfLoop] at h
    split at h
    · exact ih h
    · next hc =>
      cases h
      simpa using hc

theorem const_up (R : Rounding) : 1 + 98 / 10 ^ 16 ≤ R.rnd 1.00000000000001 ∧ R.rnd 1.00000000000001 ≤ 1 + 102 / 10 ^ 16 := by
  have h := abs_le.1 (R.err 1.00000000000001)
  norm_num at h ⊢
  constructor <;> linarith

theorem const_down (R : Rounding) : 1 - 102 / 10 ^ 16 ≤ R.rnd 0.99999999999999 ∧ R.rnd 0.99999999999999 ≤ 1 - 98 / 10 ^ 16 := by
  have h := abs_le.1 (R.err 0.99999999999999)
  norm_num at h ⊢
  constructor <;> linarith

/-- C100. For an argument between 0 and 1, whatever the error function, the result is a point at which it takes the argument up to a
relative error of `1.04e-14` — or is NaN. -/
theorem inverseErf_partial (R : Rounding) (L : Lib) (fuel : Nat) {y : ℚ} (h0 : 0 ≤ y) (h1 : y < 1) {x : D}
    (h : inverseErf R L fuel (fin y) = some x) {e : ℚ} (he : L.erf x = fin e) : |e - y| ≤ y * (104 / 10 ^ 16) := by
  unfold inverseErf at h
  rw [if_neg (by simp [D.abs, ge, abs_of_nonneg h0, h1])] at h
  obtain ⟨hu, hl⟩ := erfLoop_passed fuel h
  rw [he] at hu hl
  simp only [mul, lt, decide_eq_false_iff_not, not_lt] at hu hl
  obtain ⟨a1, a2⟩ := const_up R
  obtain ⟨b1, b2⟩ := const_down R
  have c1 := abs_le.1 (R.err (y * R.rnd 1.00000000000001))
  have c2 := abs_le.1 (R.err (y * R.rnd 0.99999999999999))
  rw [abs_of_nonneg (mul_nonneg h0 (by norm_num at a1; linarith))] at c1
  rw [abs_of_nonneg (mul_nonneg h0 (by norm_num at b1; linarith))] at c2
  have d1 := mul_le_mul_of_nonneg_left a2 h0
  have d2 := mul_le_mul_of_nonneg_left b1 h0
  have d3 := mul_le_mul_of_nonneg_left b2 h0
  norm_num at *
  rw [abs_le]
  constructor
  · linarith
  · linarith

/-- C100 (violation). For a negative argument the two bounds of the loop are the wrong way round: the function returns only at a point
where the error function is NaN. -/
theorem inverseErf_negative (R : Rounding) (L : Lib) (fuel : Nat) {y : ℚ} (h0 : y < 0) (h1 : -1 < y) {x : D}
    (h : inverseErf R L fuel (fin y) = some x) : L.erf x = nan := by
  unfold inverseErf at h
  rw [if_neg (by simp only [D.abs, ge, abs_of_neg h0, decide_eq_true_eq]; linarith)] at h
  obtain ⟨hu, hl⟩ := erfLoop_passed fuel h
  obtain ⟨a1, a2⟩ := const_up R
  obtain ⟨b1, b2⟩ := const_down R
  have c1 := abs_le.1 (R.err (y * R.rnd 1.00000000000001))
  have c2 := abs_le.1 (R.err (y * R.rnd 0.99999999999999))
  rw [abs_of_nonpos (mul_nonpos_of_nonpos_of_nonneg h0.le (by norm_num at a1; linarith))] at c1
  rw [abs_of_nonpos (mul_nonpos_of_nonpos_of_nonneg h0.le (by norm_num at b1; linarith))] at c2
  have d1 := mul_le_mul_of_nonpos_left a1 h0.le
  have d2 := mul_le_mul_of_nonpos_left b1 h0.le
  have d3 := mul_le_mul_of_nonpos_left b2 h0.le
  have d4 := mul_le_mul_of_nonpos_left a2 h0.le
  cases he : L.erf x with
  | nan => rfl
  | inf s =>
    rw [he] at hu hl
    cases s <;> simp [mul, lt] at hu hl
  | fin e =>
    exfalso
    rw [he] at hu hl
    simp only [mul, lt, decide_eq_false_iff_not, not_lt] at hu hl
    norm_num at *
    linarith

/-- C100 (violation). So with an error function that is a number everywhere, no negative argument is ever answered. -/
theorem inverseErf_hangs (R : Rounding) (L : Lib) (hL : ∀ x, L.erf x ≠ nan) (fuel : Nat) {y : ℚ} (h0 : y < 0) (h1 : -1 < y) :
    inverseErf R L fuel (fin y) = none := by
  cases h : inverseErf R L fuel (fin y) with
  | none => rfl
  | some x => exact absurd (inverseErf_negative R L fuel h0 h1 h) (hL x)

/-- C100 (violation). The inverse of the normal distribution returns no number below the median: NaN for the smallest arguments, and for
arguments of at least `2^-53` it hangs. -/
theorem inverseUnitNormalCDF_hangs (R : Rounding) (L : Lib) (hL : ∀ x, L.erf x ≠ nan) (fuel : Nat) {x : ℚ} (hd : IsDouble x) (h0 : 0 < x)
    (h1 : x < 1 / 2) : (∀ r, inverseUnitNormalCDF R L fuel (fin x) = some r → r = nan) ∧
      (1 / 2 ^ 53 ≤ x → inverseUnitNormalCDF R L fuel (fin x) = none) := by
  have e1 : R.rnd (2 * x) = 2 * x := R.exact (by
    have := isDouble_scale hd 1
    rw [zpow_one] at this
    rwa [mul_comm])
  have hlt : R.rnd (2 * x - 1) < 0 := by
    by_cases hq : x ≤ 1 / 4
    · have := R.le_of_double (x := 2 * x - 1) (y := -1 / 2) ⟨-1, -1, by norm_num, by norm_num⟩ (by linarith)
      linarith
    · push Not at hq
      obtain ⟨m, hm⟩ := isDouble_mult hd (-54) (by rw [abs_of_pos h0]; norm_num; linarith)
      norm_num at hm
      have a1 : (m : ℚ) < 2 ^ 53 := by rw [hm] at h1; linarith
      have a1' : m < 2 ^ 53 := by exact_mod_cast a1
      have a2 : m ≤ 2 ^ 53 - 1 := by omega
      have a3 : (m : ℚ) ≤ 2 ^ 53 - 1 := by exact_mod_cast a2
      have := R.le_of_double (x := 2 * x - 1) (y := -1 / 2 ^ 53) ⟨-1, -53, by norm_num, by norm_num⟩ (by
        rw [hm]; norm_num at a3 ⊢; linarith)
      norm_num at this
      linarith
  have hcall : inverseUnitNormalCDF R L fuel (fin x) =
      (inverseErf R L fuel (fin (R.rnd (2 * x - 1)))).map (mul R (fin (R.rnd 1.4142135623730950488016887242097))) := by
    unfold inverseUnitNormalCDF
    simp only [mul, sub, neg, add, e1, sub_eq_add_neg]
  rw [hcall]
  refine ⟨fun r hr => ?_, fun hx => ?_⟩
  · by_cases hgt : -1 < R.rnd (2 * x - 1)
    · rw [inverseErf_hangs R L hL fuel hlt hgt] at hr
      cases hr
    · unfold inverseErf at hr
      rw [if_pos (by simp only [D.abs, ge, abs_of_neg hlt, decide_eq_true_eq]; linarith)] at hr
      cases hr
      rfl
  · have hgt : -1 < R.rnd (2 * x - 1) := by
      have := R.ge_of_double (x := 2 * x - 1) (y := -1 + 1 / 2 ^ 52) ⟨-2 ^ 52 + 1, -52, by norm_num, by norm_num⟩ (by
        norm_num at hx ⊢; linarith)
      norm_num at this
      linarith
    rw [inverseErf_hangs R L hL fuel hlt hgt]
    rfl

/-- C100. Arguments outside the open interval give NaN. -/
theorem inverseErf_outside (R : Rounding) (L : Lib) (fuel : Nat) {y : ℚ} (h : 1 ≤ |y|) (s : Bool) :
    inverseErf R L fuel (fin y) = some nan ∧ inverseErf R L fuel (inf s) = some nan := by
  unfold inverseErf
  rw [if_pos (by simp [D.abs, ge, h]), if_pos (by rfl)]
  exact ⟨rfl, rfl⟩

/-- A function with the shape of an error function: the identity, cut off at one. -/
def ramp : D → D
  | fin q => fin (max (-1) (min 1 q))
  | inf s => fin (if s then -1 else 1)
  | nan => fin 0

/-- A library for which Newton's method works. -/
def exLib : Lib := ⟨ramp, fun _ => fin (9 / 8), fun x => x, fun x => x⟩

-- the loop ends for a positive argument; for the negative one the hypotheses of the theorems above hold
example : (inverseErf ieee exLib 100 (fin (1 / 4))).isSome = true := by decide +kernel

example (fuel : Nat) : inverseErf ieee exLib fuel (fin (-1 / 4)) = none :=
  inverseErf_hangs ieee exLib (fun x => by cases x <;> simp [exLib, ramp]) fuel (by norm_num) (by norm_num)

example (fuel : Nat) : inverseUnitNormalCDF ieee exLib fuel (fin (1 / 4)) = none :=
  (inverseUnitNormalCDF_hangs ieee exLib (fun x => by cases x <;> simp [exLib, ramp]) fuel ⟨1, -2, by norm_num, by norm_num⟩
    (by norm_num) (by norm_num)).2 (by norm_num)

end Verif.MathFn
