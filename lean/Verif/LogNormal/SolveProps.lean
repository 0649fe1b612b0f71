import Verif.LogNormal.Props

/-! # Solving equations and drawing numbers (C117, C118) -/

namespace Verif.LogNormal
open Verif Real MeasureTheory Set

/-! ## Equations (C117) -/

/-- A matrix times a vector. -/
def Mat.app (m : Mat) (x : Vec) : Vec := (m.a * x.1 + m.b * x.2, m.c * x.1 + m.d * x.2)

/-- **C117, partial.** When `solve2` says it worked, what it gives is the one and only solution; it says so exactly when the determinant is not below a millionth.
Missing for the full statement: systems with smaller determinants (`solve2_false`). -/
theorem solve2_partial (m : Mat) (r : Vec) : ((solve2 m r).1 = true ↔ 1e-6 ≤ |m.a * m.d - m.b * m.c|) ∧
    ((solve2 m r).1 = true → ∀ x, m.app x = r ↔ x = (solve2 m r).2) := by
  unfold solve2
  by_cases h : |m.a * m.d - m.b * m.c| < 1e-6
  · simp only [h, if_true]
    simp [not_le.2 h]
  · simp only [h, if_false]
    refine ⟨by simp [not_lt.1 h], fun _ x => ?_⟩
    have hd : m.a * m.d - m.b * m.c ≠ 0 := by
      intro e
      rw [e] at h
      norm_num at h
    obtain ⟨p, q⟩ := r
    obtain ⟨x, y⟩ := x
    simp only [Mat.app, Prod.mk.injEq]
    constructor
    · rintro ⟨rfl, rfl⟩
      constructor
      · rw [eq_div_iff hd]; ring
      · rw [eq_div_iff hd]; ring
    · rintro ⟨h1, h2⟩
      rw [eq_div_iff hd] at h1 h2
      constructor
      · apply mul_right_cancel₀ hd
        linear_combination m.a * h1 + m.b * h2
      · apply mul_right_cancel₀ hd
        linear_combination m.c * h1 + m.d * h2

/-- The regression test of `drawRandomLogNormal.cpp:915-937`. -/
example : solve2 ⟨3, 4, 1, 2⟩ (1, 1) = (true, (-1, 1)) := by
  unfold solve2
  norm_num

/-- **The full C117 is false, first part.** "The return value indicates whether a solution was found": a regular system in small units is called unsolvable. -/
theorem solve2_false : ∃ (m : Mat) (r : Vec), (∃! x, m.app x = r) ∧ (solve2 m r).1 = false := by
  refine ⟨⟨1e-4, 0, 0, 1e-4⟩, (1e-4, 1e-4), ⟨(1, 1), ?_, ?_⟩, ?_⟩
  · simp [Mat.app]
  · rintro ⟨x, y⟩ h
    simp only [Mat.app, Prod.mk.injEq] at h ⊢
    constructor <;> norm_num at h ⊢ <;> linarith [h.1, h.2]
  · unfold solve2
    norm_num [abs_lt]

/-- How far a vector is from zero, as `findZero` measures it. -/
def size (x : Vec) : ℝ := |x.1| + |x.2|

/-- One Newton step. -/
def Newton (func : Vec → Vec × Mat) (x y : Vec) : Prop :=
  1e-6 ≤ |(func x).2.a * (func x).2.d - (func x).2.b * (func x).2.c| ∧ (func x).2.app (y.1 - x.1, y.2 - x.2) = (-(func x).1.1, -(func x).1.2)

/-- A path of Newton steps, from each of which the function was still too large, and each of which was still large. -/
inductive Path (func : Vec → Vec × Mat) (tolx tolf : ℝ) : ℕ → Vec → Vec → Prop
  | nil (x : Vec) : Path func tolx tolf 0 x x
  | cons {n : ℕ} {x y z : Vec} : tolf < size (func x).1 → Newton func x y → tolx < size (y.1 - x.1, y.2 - x.2) → Path func tolx tolf n y z → Path func tolx tolf (n + 1) x z

/-- Where `findZero` says it has found a zero: the function is small, or the last Newton step was. -/
def Found (func : Vec → Vec × Mat) (tolx tolf : ℝ) (y z : Vec) : Prop :=
  (size (func y).1 ≤ tolf ∧ z = y) ∨ (tolf < size (func y).1 ∧ Newton func y z ∧ size (z.1 - y.1, z.2 - y.2) ≤ tolx)

/-- Where it gives up: the determinant is too small. -/
def Singular (func : Vec → Vec × Mat) (tolf : ℝ) (y : Vec) : Prop :=
  tolf < size (func y).1 ∧ |(func y).2.a * (func y).2.d - (func y).2.b * (func y).2.c| < 1e-6

/-- **C117.** What `findZero` does, for any function and Jacobian: it goes along Newton steps; it succeeds at the first point where the function or the step is small enough, and
gives up at a singular Jacobian or after the given number of trials. -/
theorem findZero_steps (func : Vec → Vec × Mat) (tolx tolf : ℝ) : ∀ (trials : ℕ) (x z : Vec) (b : Bool), findZero func tolx tolf trials x = (b, z) →
    (b = true ∧ ∃ n y, n < trials ∧ Path func tolx tolf n x y ∧ Found func tolx tolf y z) ∨
    (b = false ∧ ((∃ n, n < trials ∧ Path func tolx tolf n x z ∧ Singular func tolf z) ∨ Path func tolx tolf trials x z)) := by
  intro trials
  induction trials with
  | zero =>
    intro x z b h
    simp only [findZero, Prod.mk.injEq] at h
    obtain ⟨rfl, rfl⟩ := h
    exact .inr ⟨rfl, .inr (.nil x)⟩
  | succ trials ih =>
    intro x z b h
    simp only [findZero] at h
    by_cases h1 : |(func x).1.1| + |(func x).1.2| ≤ tolf
    · rw [if_pos h1] at h
      simp only [Prod.mk.injEq] at h
      obtain ⟨rfl, rfl⟩ := h
      exact .inl ⟨rfl, 0, x, by omega, .nil x, .inl ⟨h1, rfl⟩⟩
    · rw [if_neg h1] at h
      have h1' : tolf < size (func x).1 := not_le.1 h1
      obtain ⟨k1, k2⟩ := solve2_partial (func x).2 (-(func x).1.1, -(func x).1.2)
      by_cases h2 : (solve2 (func x).2 (-(func x).1.1, -(func x).1.2)).1 = false
      · rw [if_pos h2] at h
        simp only [Prod.mk.injEq] at h
        obtain ⟨rfl, rfl⟩ := h
        refine .inr ⟨rfl, .inl ⟨0, by omega, .nil x, h1', ?_⟩⟩
        rw [← not_le, ← k1, h2]
        simp
      · rw [if_neg h2] at h
        have h2' : (solve2 (func x).2 (-(func x).1.1, -(func x).1.2)).1 = true := by simpa using h2
        set c := (solve2 (func x).2 (-(func x).1.1, -(func x).1.2)).2 with hc
        have hn : Newton func x (x.1 + c.1, x.2 + c.2) := by
          refine ⟨k1.1 h2', ?_⟩
          rw [show ((x.1 + c.1 - x.1, x.2 + c.2 - x.2) : Vec) = c by simp]
          exact (k2 h2' c).2 rfl
        have hs : size (x.1 + c.1 - x.1, x.2 + c.2 - x.2) = |c.1| + |c.2| := by simp [size]
        by_cases h3 : |c.1| + |c.2| ≤ tolx
        · rw [if_pos h3] at h
          simp only [Prod.mk.injEq] at h
          obtain ⟨rfl, rfl⟩ := h
          exact .inl ⟨rfl, 0, x, by omega, .nil x, .inr ⟨h1', hn, by rw [hs]; exact h3⟩⟩
        · rw [if_neg h3] at h
          have h3' : tolx < size (x.1 + c.1 - x.1, x.2 + c.2 - x.2) := by rw [hs]; exact not_le.1 h3
          rcases ih _ z b h with ⟨hb, n, y, a1, a2, a3⟩ | ⟨hb, ⟨n, a1, a2, a3⟩ | a⟩
          · exact .inl ⟨hb, n + 1, y, by omega, .cons h1' hn h3' a2, a3⟩
          · exact .inr ⟨hb, .inl ⟨n + 1, by omega, .cons h1' hn h3' a2, a3⟩⟩
          · exact .inr ⟨hb, .inr (.cons h1' hn h3' a)⟩

/-- **C117.** Linear systems whose determinant is large enough are solved from any starting point, with two trials. -/
theorem findZero_linear (m : Mat) (r : Vec) (hd : 1e-6 ≤ |m.a * m.d - m.b * m.c|) (tolx tolf : ℝ) (h0 : 0 ≤ tolf) (trials : ℕ) (ht : 2 ≤ trials) (x : Vec) :
    ∃ z, findZero (fun x => (((m.app x).1 - r.1, (m.app x).2 - r.2), m)) tolx tolf trials x = (true, z) ∧
      size ((m.app z).1 - r.1, (m.app z).2 - r.2) ≤ tolf := by
  set func : Vec → Vec × Mat := fun x => (((m.app x).1 - r.1, (m.app x).2 - r.2), m) with hf
  have hzero : ∀ x y, Newton func x y → (func y).1 = (0, 0) := by
    rintro ⟨x1, x2⟩ ⟨y1, y2⟩ ⟨_, h⟩
    simp only [hf, Mat.app, Prod.mk.injEq] at h ⊢
    constructor
    · linear_combination h.1
    · linear_combination h.2
  obtain ⟨b, z, hx⟩ : ∃ b z, findZero func tolx tolf trials x = (b, z) := ⟨_, _, rfl⟩
  rcases findZero_steps func tolx tolf trials x z b hx with ⟨rfl, n, y, _, _, h⟩ | ⟨rfl, h⟩
  · refine ⟨z, hx, ?_⟩
    rcases h with ⟨h, rfl⟩ | ⟨_, h, _⟩
    · exact h
    · have := hzero _ _ h
      simp only [hf] at this
      rw [this]
      simpa [size] using h0
  · exfalso
    rcases h with ⟨n, _, _, _, h⟩ | h
    · exact absurd h (not_lt.2 hd)
    · obtain ⟨k, rfl⟩ : ∃ k, trials = k + 2 := ⟨trials - 2, by omega⟩
      cases h with
      | cons _ hn _ h =>
        cases h with
        | cons hs _ _ _ =>
          rw [hzero _ _ hn] at hs
          simp [size] at hs
          linarith

/-- The derivatives of a polynomial. -/
noncomputable def steep (x : Vec) : Vec × Mat := ((1 + 10 ^ 7 * x.1 + 10 ^ 16 * x.1 ^ 2, x.2), ⟨10 ^ 7 + 2 * 10 ^ 16 * x.1, 0, 0, 1⟩)

/-- **The full C117 is false, second part.** "Return value is success indicator (true=zero found)": for a polynomial without zeros, with its true derivatives, and the tolerances `solveLogNormal` uses, one step
suffices to report success, at a point where the function is 100. -/
theorem findZero_false : (∀ x, (steep x).1 ≠ (0, 0)) ∧ (∀ x : Vec, HasDerivAt (fun t => (steep (t, x.2)).1.1) (steep x).2.a x.1 ∧ HasDerivAt (fun t => (steep (x.1, t)).1.2) (steep x).2.d x.2) ∧
    findZero steep 1e-6 1e-3 500 (0, 0) = (true, (-1e-7, 0)) ∧ (steep (-1e-7, 0)).1 = (100, 0) := by
  refine ⟨?_, ?_, ?_, ?_⟩
  · rintro ⟨x, y⟩ h
    simp only [steep, Prod.mk.injEq] at h
    nlinarith [sq_nonneg (10 ^ 8 * x + 1 / 20), h.1]
  · rintro ⟨x, y⟩
    constructor
    · simp only [steep]
      have h1 := ((hasDerivAt_id x).const_mul (10 ^ 7 : ℝ)).const_add 1
      have h2 := ((hasDerivAt_pow 2 x).const_mul (10 ^ 16 : ℝ))
      have := h1.add h2
      convert! this using 1
      simp; ring
    · simp only [steep]
      exact hasDerivAt_id y
  · rw [show (500 : ℕ) = 499 + 1 from rfl, findZero]
    simp only [steep, solve2]
    norm_num
  · simp only [steep]
    norm_num

/-- The mean of the log-normal distribution cut off at `U`. -/
noncomputable def cutMean (U : ℝ) (x : Vec) : ℝ := (∫ t in Ioo 0 U, t * density x.1 x.2 t) / ∫ t in Ioo 0 U, density x.1 x.2 t

/-- Its variance. -/
noncomputable def cutVar (U : ℝ) (x : Vec) : ℝ := (∫ t in Ioo 0 U, t ^ 2 * density x.1 x.2 t) / (∫ t in Ioo 0 U, density x.1 x.2 t) - cutMean U x ^ 2

theorem cutMean_eq (U : ℝ) (x : Vec) (hs : 0 < x.2) (hU : 0 < U) : cutMean U x = momentLogNormal x.1 x.2 (log U) 1 := by
  rw [moment_spec x.1 x.2 U hs hU 1]
  simp [cutMean]

theorem target_eq (mean sigma U : ℝ) (x : Vec) (hs : 0 < x.2) (hU : 0 < U) : target mean sigma U x = (cutMean U x - mean, cutVar U x - sigma ^ 2) := by
  unfold target cutVar
  rw [cutMean_eq U x hs hU, ← moment_spec x.1 x.2 U hs hU 2]
  simp only [sq]

theorem moment_le (m s U : ℝ) (hs : 0 < s) (hU : 0 < U) (r : ℕ) : 0 ≤ momentLogNormal m s (log U) r ∧ momentLogNormal m s (log U) r ≤ U ^ r := by
  rw [moment_spec m s U hs hU r]
  have hp := integral_density_pos m s U hs hU
  have h0 : 0 ≤ ∫ x in Ioo 0 U, x ^ r * density m s x :=
    setIntegral_nonneg measurableSet_Ioo fun x hx => mul_nonneg (pow_nonneg hx.1.le r) (density_nonneg m s x hs hx.1).le
  refine ⟨div_nonneg h0 hp.le, ?_⟩
  rw [div_le_iff₀ hp, ← integral_const_mul]
  apply integral_mono_of_nonneg
  · exact (ae_restrict_iff' measurableSet_Ioo).2 (.of_forall fun x hx => mul_nonneg (pow_nonneg hx.1.le r) (density_nonneg m s x hs hx.1).le)
  · exact (integrableOn_density m s U hs hU).const_mul _
  · exact (ae_restrict_iff' measurableSet_Ioo).2 (.of_forall fun x hx =>
      mul_le_mul_of_nonneg_right (pow_le_pow_left₀ hx.1.le hx.2.le r) (density_nonneg m s x hs hx.1).le)

/-- **C117, partial.** When `solveLogNormal` succeeds, and with a positive sigma, the distribution it gives has the desired mean and variance up to a total of a thousandth — absolutely, not relatively — or
else it was reached from another point by a step of Newton's method, with the numerical Jacobian, of at most a millionth. Missing for the full statement: that the distribution has the desired mean and variance. -/
theorem solve_partial (mean sigma U : ℝ) (hU : 0 < U) (x : Vec) (h : solveLogNormal mean sigma U = some x) :
    (0 < x.2 → |cutMean U x - mean| + |cutVar U x - sigma ^ 2| ≤ 1e-3) ∨
    ∃ y, Newton (targetFunc mean sigma U) y x ∧ |x.1 - y.1| + |x.2 - y.2| ≤ 1e-6 := by
  unfold solveLogNormal at h
  simp only [] at h
  set x0 : Vec := (log mean - √(log (sigma * sigma / mean / mean + 1)) * √(log (sigma * sigma / mean / mean + 1)) / 2, √(log (sigma * sigma / mean / mean + 1))) with hx0
  obtain ⟨b, z, hb⟩ : ∃ b z, findZero (targetFunc mean sigma U) 1e-6 1e-3 500 x0 = (b, z) := ⟨_, _, rfl⟩
  rw [hb] at h
  rcases findZero_steps _ _ _ _ _ _ _ hb with ⟨rfl, n, y, _, _, hf⟩ | ⟨rfl, _⟩
  · simp at h
    subst h
    rcases hf with ⟨hf, rfl⟩ | ⟨_, hn, hz⟩
    · left
      intro hs
      have : (targetFunc mean sigma U z).1 = target mean sigma U z := rfl
      rw [this, target_eq mean sigma U z hs hU] at hf
      exact hf
    · exact .inr ⟨y, hn, hz⟩
  · simp at h

/-- **The full C117 is false, third part.** "If no solution exists, this program prints an error message to stderr, and exits with a non-zero status code": no distribution cut off at `U` has a mean
greater than `U`; but whenever the numbers are small, the solver is content with its starting point, such as for mean 0.0003 and limit 0.0001. -/
theorem solve_false : (∀ mean sigma U : ℝ, 0 < mean → 0 < sigma → 0 < U → max U mean + U ^ 2 + sigma ^ 2 ≤ 1e-3 → ∃ x : Vec, 0 < x.2 ∧ solveLogNormal mean sigma U = some x) ∧
    (∀ mean U : ℝ, 0 < U → U < mean → ¬ ∃ x : Vec, 0 < x.2 ∧ cutMean U x = mean) ∧
    ∃ mean sigma U : ℝ, 0 < mean ∧ 0 < sigma ∧ 0 < U ∧ U < mean ∧ ∃ x : Vec, 0 < x.2 ∧ solveLogNormal mean sigma U = some x := by
  have key : ∀ mean sigma U : ℝ, 0 < mean → 0 < sigma → 0 < U → max U mean + U ^ 2 + sigma ^ 2 ≤ 1e-3 → ∃ x : Vec, 0 < x.2 ∧ solveLogNormal mean sigma U = some x := by
    intro mean sigma U hm hsg hU h
    have hs : 0 < √(log (sigma * sigma / mean / mean + 1)) := by
      apply Real.sqrt_pos.2
      apply Real.log_pos
      have : 0 < sigma * sigma / mean / mean := by positivity
      linarith
    unfold solveLogNormal
    simp only []
    set s := √(log (sigma * sigma / mean / mean + 1)) with hsdef
    refine ⟨(log mean - s * s / 2, s), hs, ?_⟩
    rw [show (500 : ℕ) = 499 + 1 from rfl, findZero]
    have h1 := moment_le (log mean - s * s / 2) s U hs hU 1
    have h2 := moment_le (log mean - s * s / 2) s U hs hU 2
    have : |(targetFunc mean sigma U (log mean - s * s / 2, s)).1.1| + |(targetFunc mean sigma U (log mean - s * s / 2, s)).1.2| ≤ 1e-3 := by
      simp only [targetFunc, target]
      generalize momentLogNormal (log mean - s * s / 2) s (log U) 1 = M1 at h1 ⊢
      generalize momentLogNormal (log mean - s * s / 2) s (log U) 2 = M2 at h2 ⊢
      rw [pow_one] at h1
      have hU2 : U ≤ max U mean := le_max_left _ _
      have hm2 : mean ≤ max U mean := le_max_right _ _
      have h3 : |M1 - mean| ≤ max U mean := by
        rw [abs_le]; constructor <;> linarith [h1.1, h1.2]
      have h4 : M1 * M1 ≤ U ^ 2 := by nlinarith [h1.1, h1.2]
      have h5 : |M2 - M1 * M1 - sigma * sigma| ≤ U ^ 2 + sigma ^ 2 := by
        rw [abs_le]; constructor <;> nlinarith [h2.1, h2.2, mul_self_nonneg M1, mul_self_nonneg sigma]
      linarith
    simp only [this, if_true]
  refine ⟨key, ?_, ?_⟩
  · rintro mean U hU h ⟨x, hs, hx⟩
    have := (moment_le x.1 x.2 U hs hU 1).2
    rw [← cutMean_eq U x hs hU, hx] at this
    linarith [pow_one U]
  · refine ⟨3e-4, 1e-4, 1e-4, by norm_num, by norm_num, by norm_num, by norm_num, ?_⟩
    apply key <;> norm_num

/-! ## Random numbers (C118) -/

/-- The two Box–Muller numbers of a point within the unit circle and not its centre, as real numbers. -/
noncomputable def boxMuller (u : ℝ × ℝ) : List ℝ :=
  let v1 := 2 * u.1 - 1
  let v2 := 2 * u.2 - 1
  let vr := v1 ^ 2 + v2 ^ 2
  [v1 * √(-2 * log vr / vr), v2 * √(-2 * log vr / vr)]

/-- The points that may be used. -/
def Usable (u : ℝ × ℝ) : Prop := 0 < (2 * u.1 - 1) ^ 2 + (2 * u.2 - 1) ^ 2 ∧ (2 * u.1 - 1) ^ 2 + (2 * u.2 - 1) ^ 2 ≤ 1

theorem candidate_in (v vr : ℝ) (h0 : 0 < vr) (h1 : vr ≤ 1) : candidate v vr = .fin (v * √(-2 * log vr / vr)) := by
  have hl : log vr ≤ 0 := Real.log_nonpos h0.le h1
  have : ¬ (-2 * log vr / vr < 0) := not_lt.2 (div_nonneg (by linarith) h0.le)
  simp [candidate, Dbl.log, h0, Dbl.mul, Dbl.div, h0.ne', Dbl.sqrt]
  have : ¬ (-(2 * log vr) / vr < 0) := by simpa using this
  rw [if_neg this]

theorem candidate_big (v vr : ℝ) (h1 : 1 < vr) : candidate v vr = .nan := by
  have h0 : 0 < vr := by linarith
  have hl : 0 < log vr := Real.log_pos h1
  have : -(2 * log vr) / vr < 0 := div_neg_of_neg_of_pos (by linarith) h0
  simp [candidate, Dbl.log, h0, Dbl.mul, Dbl.div, h0.ne', Dbl.sqrt, this]

theorem candidate_zero : candidate 0 0 = .nan := by
  have : ¬ ((2 : ℝ) < 0) := by norm_num
  simp [candidate, Dbl.log, Dbl.mul, Dbl.div, Dbl.sqrt, this]

open Classical in
/-- **C118.** The condition `vr > 0.0 || vr <= 1.0` is always true, so that points outside the circle and its centre are not rejected there; they give NaN, which is not below any limit. So the function gives,
for any numbers drawn, just what it should: the first Box–Muller number, among those of the points that may be used, that is not above the limit; and it goes on while there is none. -/
theorem normalRandomLimit_spec (limit : ℝ) (us : List (ℝ × ℝ)) :
    normalRandomLimit (.fin limit) us = (((us.filter (fun u => decide (Usable u))).flatMap boxMuller).find? (fun x => decide (x ≤ limit))).map Dbl.fin := by
  induction us with
  | nil => rfl
  | cons u us ih =>
    rw [normalRandomLimit]
    have e : (2 * u.1 - 1) * (2 * u.1 - 1) + (2 * u.2 - 1) * (2 * u.2 - 1) = (2 * u.1 - 1) ^ 2 + (2 * u.2 - 1) ^ 2 := by ring
    rw [e]
    set v1 := 2 * u.1 - 1 with hv1
    set v2 := 2 * u.2 - 1 with hv2
    have hor : 0 < v1 ^ 2 + v2 ^ 2 ∨ v1 ^ 2 + v2 ^ 2 ≤ 1 := by
      by_cases h : 0 < v1 ^ 2 + v2 ^ 2
      · exact .inl h
      · exact .inr (by linarith)
    rw [if_pos hor]
    by_cases hu : Usable u
    · have hu' := hu
      obtain ⟨h0, h1⟩ := hu'
      rw [← hv1, ← hv2] at h0 h1
      rw [candidate_in v1 _ h0 h1, candidate_in v2 _ h0 h1]
      simp only [Dbl.le, List.filter_cons, hu, decide_true, if_true, List.flatMap_cons, boxMuller, List.cons_append, List.nil_append, List.find?_cons]
      rw [← hv1, ← hv2]
      by_cases c1 : v1 * √(-2 * log (v1 ^ 2 + v2 ^ 2) / (v1 ^ 2 + v2 ^ 2)) ≤ limit
      · simp only [c1, if_true, decide_true, Option.map_some]
      · by_cases c2 : v2 * √(-2 * log (v1 ^ 2 + v2 ^ 2) / (v1 ^ 2 + v2 ^ 2)) ≤ limit
        · simp only [c1, c2, if_false, if_true, decide_false, decide_true, Option.map_some]
        · simp only [c1, c2, if_false, decide_false]
          rw [ih]
    · have hn : candidate v1 (v1 ^ 2 + v2 ^ 2) = .nan ∧ candidate v2 (v1 ^ 2 + v2 ^ 2) = .nan := by
        by_cases h : 1 < v1 ^ 2 + v2 ^ 2
        · exact ⟨candidate_big _ _ h, candidate_big _ _ h⟩
        · have : ¬ 0 < v1 ^ 2 + v2 ^ 2 := fun h' => hu ⟨h', not_lt.1 h⟩
          have e1 : v1 = 0 := by nlinarith [sq_nonneg v1, sq_nonneg v2]
          have e2 : v2 = 0 := by nlinarith [sq_nonneg v1, sq_nonneg v2]
          rw [e1, e2]
          norm_num [candidate_zero]
      rw [hn.1, hn.2]
      have hle : ¬ Dbl.nan.le (.fin limit) := fun h => h
      rw [if_neg hle, if_neg hle]
      simp only [List.filter_cons, hu, decide_false, Bool.false_eq_true, if_false]
      exact ih

/-- What the program prints, `drawRandomLogNormal.cpp:697-703`. -/
noncomputable def drawn (logMean logSigma logLimit : ℝ) (us : List (ℝ × ℝ)) : Option ℝ :=
  match normalRandomLimit (.fin ((logLimit - logMean) / logSigma)) us with
  | some (.fin nr) => some (exp (logSigma * nr + logMean))
  | _ => none

/-- **C118, partial.** With a positive sigma, the number printed is never above the limit, and positive. Missing for the full statement: that the solver's sigma is positive (`drawn_negative`). -/
theorem drawn_partial (m s U : ℝ) (hs : 0 < s) (hU : 0 < U) (us : List (ℝ × ℝ)) (r : ℝ) (h : drawn m s (log U) us = some r) : 0 < r ∧ r ≤ U := by
  classical
  unfold drawn at h
  rw [normalRandomLimit_spec] at h
  cases hf : ((us.filter (fun u => decide (Usable u))).flatMap boxMuller).find? (fun x => decide (x ≤ (log U - m) / s)) with
  | none => rw [hf] at h; simp at h
  | some nr =>
    rw [hf] at h
    simp only [Option.map_some, Option.some.injEq] at h
    have := List.find?_some hf
    simp only [decide_eq_true_eq] at this
    rw [le_div_iff₀ hs] at this
    subst h
    refine ⟨exp_pos _, ?_⟩
    rw [← Real.le_log_iff_exp_le hU]
    linarith

/-- **C118, the missing part.** Nothing in the solver keeps the sigma positive; with a negative one every number printed is at least the limit. That the solver ever ends with
a negative one is not shown. -/
theorem drawn_negative (m s U : ℝ) (hs : s < 0) (hU : 0 < U) (us : List (ℝ × ℝ)) (r : ℝ) (h : drawn m s (log U) us = some r) : U ≤ r := by
  classical
  unfold drawn at h
  rw [normalRandomLimit_spec] at h
  cases hf : ((us.filter (fun u => decide (Usable u))).flatMap boxMuller).find? (fun x => decide (x ≤ (log U - m) / s)) with
  | none => rw [hf] at h; simp at h
  | some nr =>
    rw [hf] at h
    simp only [Option.map_some, Option.some.injEq] at h
    have := List.find?_some hf
    simp only [decide_eq_true_eq] at this
    rw [le_div_iff_of_neg hs] at this
    subst h
    rw [← Real.log_le_iff_le_exp hU]
    linarith

/-- A point on the circle gives 0: printed is the exponential of the logarithmic mean, for sigma 1 and for sigma −1, whichever side of the limit that is. -/
example : drawn 0 1 (log 2) [(1, 1/2)] = some 1 ∧ drawn 0 (-1) (log (1/2)) [(1, 1/2)] = some 1 := by
  have h : ∀ l : ℝ, 0 ≤ l → normalRandomLimit (.fin l) [(1, 1/2)] = some (.fin 0) := by
    intro l hl
    rw [normalRandomLimit_spec]
    have hu : Usable (1, 1/2) := by constructor <;> norm_num
    rw [List.filter_cons, if_pos (by simpa using hu)]
    norm_num [boxMuller, hl]
  constructor
  · unfold drawn
    rw [h _ (by simpa using Real.log_nonneg (by norm_num))]
    simp
  · unfold drawn
    rw [h _ (by have := Real.log_nonpos (x := 1/2) (by norm_num) (by norm_num); rw [div_neg]; linarith)]
    simp

/-- **C118.** The program, for any way to read numbers: with no arguments at all it compares a null pointer; otherwise it solves exactly when, after `-v` if that is first, there are three positive numbers and perhaps
one integer; and it succeeds exactly when the solver does. -/
theorem main_spec {α : Type} [LE α] [DecidableLE α] (zero : α) (number : String → Option α) (seedOk : String → Bool) (solvable : α → α → α → Bool) (args : List String) :
    (main zero number seedOk solvable args = .ub ↔ args = []) ∧
    (∀ r, main zero number seedOk solvable args = .ok r → r ≠ .usage →
      ∃ v m s u i, args = v ++ [m, s, u] ++ i ∧ (v = ["-v"] ∨ v = [] ∧ m ≠ "-v") ∧ i.length ≤ 1 ∧ (∀ a ∈ i, seedOk a = true) ∧
        ∃ m' s' u', number m = some m' ∧ number s = some s' ∧ number u = some u' ∧ ¬ m' ≤ zero ∧ ¬ s' ≤ zero ∧ ¬ u' ≤ zero ∧ (r = .done ↔ solvable m' s' u' = true)) ∧
    (∀ v m s u i m' s' u', args = v ++ [m, s, u] ++ i → (v = ["-v"] ∨ v = [] ∧ m ≠ "-v") → i.length ≤ 1 → (∀ a ∈ i, seedOk a = true) → number m = some m' → number s = some s' → number u = some u' →
      ¬ m' ≤ zero → ¬ s' ≤ zero → ¬ u' ≤ zero → main zero number seedOk solvable args = .ok (if solvable m' s' u' then .done else .noSolution)) := by
  refine ⟨?_, ?_, ?_⟩
  · unfold main
    constructor
    · intro h
      cases args with
      | nil => rfl
      | cons a as =>
        exfalso
        simp only [] at h
        repeat' split at h
        all_goals cases h
    · rintro rfl; rfl
  · intro r h hr
    unfold main at h
    cases args with
    | nil => cases h
    | cons a as =>
      simp only [] at h
      split at h
      · next m s u more hrest =>
        have harg : ∃ v, a :: as = v ++ [m, s, u] ++ more ∧ (v = ["-v"] ∨ v = [] ∧ m ≠ "-v") := by
          by_cases ha : a = "-v"
          · rw [if_pos ha] at hrest
            exact ⟨["-v"], by simp [ha, hrest], .inl rfl⟩
          · rw [if_neg ha] at hrest
            refine ⟨[], by simpa using hrest, .inr ⟨rfl, ?_⟩⟩
            simp only [List.cons.injEq] at hrest
            rw [← hrest.1]; exact ha
        obtain ⟨v, hv1, hv2⟩ := harg
        split at h
        · simp only [Res.ok.injEq] at h; exact absurd h.symm hr
        · next hl =>
          split at h
          · next m' s' u' e1 e2 e3 =>
            split at h
            · simp only [Res.ok.injEq] at h; exact absurd h.symm hr
            · next hz =>
              split at h
              · simp only [Res.ok.injEq] at h; exact absurd h.symm hr
              · next hseed =>
                refine ⟨v, m, s, u, more, hv1, hv2, by omega, ?_, m', s', u', e1, e2, e3, fun c => hz (.inl c), fun c => hz (.inr (.inl c)), fun c => hz (.inr (.inr c)), ?_⟩
                · simpa using hseed
                · cases hsol : solvable m' s' u' <;> rw [hsol] at h <;> simp at h <;> subst h <;> simp
          · simp only [Res.ok.injEq] at h; exact absurd h.symm hr
      · simp only [Res.ok.injEq] at h; exact absurd h.symm hr
  · rintro v m s u i m' s' u' rfl hv hi hseed e1 e2 e3 z1 z2 z3
    have hall : i.all seedOk = true := by simpa using hseed
    rcases hv with rfl | ⟨rfl, hm⟩
    · simp [main, e1, e2, e3, z1, z2, z3, Nat.not_lt.2 hi, hall]
      split <;> rfl
    · simp [main, hm, e1, e2, e3, z1, z2, z3, Nat.not_lt.2 hi, hall]
      split <;> rfl

example : main 0 (fun s => some s.length) (fun s => s.length = 1) (fun m _ u => decide (m < u)) ["-v", "a", "bb", "cc", "7"] = .ok .done := by
  decide +kernel

end Verif.LogNormal
