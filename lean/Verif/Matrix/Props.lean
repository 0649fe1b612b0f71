import Verif.Matrix.Lemmas

/-!
# Properties of Gaussian elimination

C40.
-/

namespace Verif.Matrix

open Verif

theorem tiny_zero {eps : Rat} (he : 0 < eps) (r : Rat → Rat) (h0 : r 0 = 0) : Sound (tiny r eps) := by
  unfold Sound tiny Histo.eq
  simp [h0, he]

/-- Everything about a call for `n` columns. -/
theorem gauss_all {r : Rat → Rat} (hr : Nice r) {z : Rat → Bool} (hz : Sound z) (m : Mat) {n : Nat} (h1 : 1 ≤ n) (h2 : n ≤ m.cols) (hf : Fixed r m) :
    ∃ m' e, gauss r z m n = .ok (m', e) ∧ m'.rows = m.rows ∧ m'.cols = m.cols ∧ e ≤ n ∧ e ≤ m.rows ∧ (r = id → ∀ x, Solves m' x ↔ Solves m x) ∧ (e = n → Ident m' n) := by
  obtain ⟨m1, e, c, f0, f1, f2, f3, f4, f5, f6, f7, f8, f9, f10⟩ := forward_ok r hz n 0 0 m (Nat.le_refl _) (Nat.zero_le _) (by omega)
  unfold gauss
  rw [if_neg (by omega)]
  simp only [Int.toNat_natCast]
  rw [f0, Res.bind_ok]
  simp only []
  by_cases he : e = n
  · have ⟨ht, hc⟩ := f10 hr hf (fun i j _ hj => by omega) rfl (by omega)
    rw [Nat.zero_add] at ht hc
    rw [if_pos (by rw [he]), hc, if_neg (by omega)]
    obtain ⟨b1, b2, b3⟩ := back_ident hr n (n - 1) m1 (by omega) (by omega) (by omega) (f9 hr hf) ht (fun i j _ h3 h4 _ => by omega)
    refine ⟨_, e, rfl, by omega, by omega, by omega, f4, fun hi x => ?_, fun _ => b1⟩
    rw [← f7 hi x]
    subst hi
    exact back_solves _ _ (fun _ => by omega) x
  · rw [if_neg (by omega)]
    exact ⟨m1, e, rfl, f1, f2, by omega, f4, f7, fun h => absurd h he⟩

theorem dot_pad {m : Mat} {n : Nat} (hn : n < m.cols) (x : Nat → Rat) (i : Nat) :
    dot m (fun j => if j < n then x j else if j = n then -1 else 0) i = ∑ j ∈ Finset.range n, m.at_ i j * x j - m.at_ i n := by
  unfold dot
  rw [← Finset.sum_subset (s₁ := Finset.range (n + 1)) (by intro j hj; rw [Finset.mem_range] at *; omega)]
  · rw [Finset.sum_range_succ]
    simp only [lt_irrefl, if_false, if_true]
    have : ∑ j ∈ Finset.range n, (m.at_ i j * if j < n then x j else if j = n then -1 else 0) = ∑ j ∈ Finset.range n, m.at_ i j * x j :=
      Finset.sum_congr rfl fun j hj => by rw [if_pos (Finset.mem_range.1 hj)]
    rw [this]
    ring
  · intro j _ hj
    rw [Finset.mem_range] at hj
    simp only []
    rw [if_neg (by omega), if_neg (by omega), mul_zero]

theorem augmented_iff {m : Mat} {n : Nat} (hn : n < m.cols) (x : Nat → Rat) : Augmented m n x ↔ Solves m (fun j => if j < n then x j else if j = n then -1 else 0) := by
  unfold Augmented Solves
  constructor
  · intro h i hi
    rw [dot_pad hn, h i hi, sub_self]
  · intro h i hi
    have := h i hi
    rw [dot_pad hn] at this
    linarith

theorem ident_sum {m : Mat} {n : Nat} (h : Ident m n) {i : Nat} (hi : i < m.rows) (x : Nat → Rat) : ∑ j ∈ Finset.range n, m.at_ i j * x j = if i < n then x i else 0 := by
  by_cases hin : i < n
  · rw [if_pos hin, Finset.sum_eq_single i]
    · rw [h i i hi hin, if_pos rfl, one_mul]
    · intro j hj hji
      rw [h i j hi (Finset.mem_range.1 hj), if_neg (Ne.symm hji), zero_mul]
    · intro hx
      exact absurd (Finset.mem_range.2 hin) hx
  · rw [if_neg hin]
    apply Finset.sum_eq_zero
    intro j hj
    have := Finset.mem_range.1 hj
    rw [h i j hi this, if_neg (by omega), zero_mul]

/-- C40. In exact arithmetic, eliminating some but at most all columns ends and changes neither the size nor the solutions: whatever numbers are put for the columns, all equations
hold afterwards exactly if they did before. Missing: no columns, see `gauss_zero_ub`, and doubles. -/
theorem gauss_solutions_partial {eps : Rat} (he : 0 < eps) (m : Mat) {n : Nat} (h1 : 1 ≤ n) (h2 : n ≤ m.cols) :
    ∃ m' e, gauss id (tiny id eps) m n = .ok (m', e) ∧ m'.rows = m.rows ∧ m'.cols = m.cols ∧ e ≤ n ∧ e ≤ m.rows ∧ (∀ x, Solves m' x ↔ Solves m x) ∧
      ∀ k, k < m.cols → ∀ x, Augmented m' k x ↔ Augmented m k x := by
  obtain ⟨m', e, g1, g2, g3, g4, g5, g6, -⟩ := gauss_all nice_id (tiny_zero he id rfl) m h1 h2 (fun _ _ _ _ => rfl)
  exact ⟨m', e, g1, g2, g3, g4, g5, g6 rfl, fun k hk x => by rw [augmented_iff (by omega), augmented_iff hk, g6 rfl]⟩

/-- C40. When all columns could be eliminated they are those of the identity; also in doubles, exactly. -/
theorem gauss_identity (R : Flt.Rounding) {eps : Rat} (he : 0 < eps) (m : Mat) (hm : Doubles m) {n : Nat} (h1 : 1 ≤ n) (h2 : n ≤ m.cols) :
    ∃ m' e, gauss R.rnd (tiny R.rnd eps) m n = .ok (m', e) ∧ m'.rows = m.rows ∧ m'.cols = m.cols ∧ e ≤ n ∧ e ≤ m.rows ∧ (e = n → Ident m' n) := by
  have hr := nice_rounding R
  obtain ⟨m', e, g1, g2, g3, g4, g5, -, g7⟩ := gauss_all hr (tiny_zero he _ hr.zero) m h1 h2 (fun i j hi hj => R.exact (hm i j hi hj))
  exact ⟨m', e, g1, g2, g3, g4, g5, g7⟩

/-- C40. When all columns could be eliminated, the equations with right sides in a further column have at most one solution, which is in that column; they have it exactly if the
column is zero in the other rows. -/
theorem gauss_unique {eps : Rat} (he : 0 < eps) {m m' : Mat} {n : Nat} (h1 : 1 ≤ n) (h2 : n < m.cols) (h : gauss id (tiny id eps) m n = .ok (m', n)) (x : Nat → Rat) :
    Augmented m n x ↔ (∀ j, j < n → x j = m'.at_ j n) ∧ ∀ i, n ≤ i → i < m.rows → m'.at_ i n = 0 := by
  obtain ⟨m1, e, g1, g2, g3, g4, g5, g6, g7⟩ := gauss_all nice_id (tiny_zero he id rfl) m h1 h2.le (fun _ _ _ _ => rfl)
  rw [h] at g1
  injection g1 with g1
  injection g1 with e1 e2
  subst e1 e2
  have hid := g7 rfl
  rw [augmented_iff h2, ← g6 rfl, ← augmented_iff (m := m') (by omega)]
  unfold Augmented
  constructor
  · intro ha
    refine ⟨fun j hj => ?_, fun i hi hi' => ?_⟩
    · have := ha j (by omega)
      rw [ident_sum hid (by omega), if_pos hj] at this
      exact this
    · have := ha i (by omega)
      rw [ident_sum hid (by omega), if_neg (by omega)] at this
      exact this.symm
  · rintro ⟨ha, hb⟩ i hi
    rw [ident_sum hid hi]
    split
    · next hin => exact ha i hin
    · next hin => exact (hb i (by omega) (by omega)).symm

/-- C40. With an exact test for zero, all columns can be eliminated exactly if they are independent. Missing: the test of the code has a tolerance, see `gauss_tolerance_false`. -/
theorem gauss_rank_partial {z : Rat → Bool} (hz : ∀ x, z x = true ↔ x = 0) (m : Mat) {n : Nat} (h1 : 1 ≤ n) (h2 : n ≤ m.cols) :
    ∃ m' e, gauss id z m n = .ok (m', e) ∧ (e = n ↔ ∀ x, Solves m x → (∀ j, n ≤ j → x j = 0) → ∀ j, j < n → x j = 0) := by
  obtain ⟨m', e, g1, g2, g3, g4, g5, g6, g7⟩ := gauss_all nice_id (z := z) ((hz 0).2 rfl) m h1 h2 (fun _ _ _ _ => rfl)
  refine ⟨m', e, g1, fun hen x hx h0 j hj => ?_, fun h => ?_⟩
  · have hid := g7 hen
    have hd := (g6 rfl x).2 hx j (by omega)
    unfold dot at hd
    rw [g3, ← Finset.sum_subset (s₁ := Finset.range n) (by intro k hk; rw [Finset.mem_range] at *; omega)
      (fun k _ hk => by rw [Finset.mem_range] at hk; rw [h0 k (by omega), mul_zero]), ident_sum hid (by omega), if_pos hj] at hd
    exact hd
  · by_contra hne
    obtain ⟨m1, e1, c, f0, -⟩ := forward_ok id (z := z) ((hz 0).2 rfl) n 0 0 m (Nat.le_refl _) (Nat.zero_le _) (by omega)
    have he1 : e1 ≠ n := by
      intro hx
      unfold gauss at g1
      rw [if_neg (by omega)] at g1
      simp only [Int.toNat_natCast] at g1
      rw [f0, Res.bind_ok] at g1
      simp only [] at g1
      rw [if_pos (by rw [hx])] at g1
      split at g1
      · cases g1
      · injection g1 with g1
        injection g1 with g1 g1'
        omega
    obtain ⟨x, x1, ⟨j, hj, hxj⟩, x3⟩ := forward_kernel hz n 0 m m1 e1 c (Nat.zero_le _) (by omega) (fun i j _ hj => by omega) f0 (by omega)
    exact hxj (h x x1 (fun j hj => x3 j (by omega)) j (by omega))

/-- C40. The tolerance is absolute: `x / 10^13 = 1 / 10^13` has a solution, but its column cannot be eliminated. -/
theorem gauss_tolerance_false : (gauss id (tiny id (1 / 10 ^ 12)) ⟨1, 2, fun _ _ => 1 / 10 ^ 13⟩ 1).map (fun p => p.2) = .ok 0 ∧
    ∀ x, Augmented ⟨1, 2, fun _ _ => 1 / 10 ^ 13⟩ 1 x ↔ x 0 = 1 := by
  refine ⟨by decide +kernel, fun x => ?_⟩
  unfold Augmented
  simp only [Finset.sum_range_one]
  constructor
  · intro h
    have := h 0 (by norm_num)
    linarith
  · intro h i _
    rw [h, mul_one]

/-- C40. Eliminating no columns is undefined; also by default if there is no row or no column. -/
theorem gauss_zero_ub (r : Rat → Rat) (z : Rat → Bool) (m : Mat) : gauss r z m 0 = .ub ∧ (m.rows = 0 ∨ m.cols = 0 → gauss r z m (-1) = .ub) := by
  refine ⟨rfl, fun h => ?_⟩
  have hm : min m.rows m.cols = 0 := by omega
  have : gauss r z m (-1) = gauss r z m 0 := by
    unfold gauss
    rw [if_pos rfl, if_neg (by omega), ← Nat.cast_min, hm]
    rfl
  rw [this]
  rfl

/-- By default as many columns are eliminated as there are rows and columns. -/
theorem gauss_default (r : Rat → Rat) (z : Rat → Bool) (m : Mat) : gauss r z m (-1) = gauss r z m (min m.rows m.cols : Nat) := by
  unfold gauss
  rw [if_pos rfl, if_neg (by omega), Nat.cast_min]

/-- C40. Asking for more columns than there are is undefined if there are more rows than columns. -/
theorem gauss_past_ub (r : Rat → Rat) {z : Rat → Bool} (hz : Sound z) (m : Mat) {n : Nat} (h1 : m.cols < n) (h2 : m.cols < m.rows) : gauss r z m n = .ub := by
  have key : ∀ (k c e : Nat) (m : Mat), e ≤ c → c ≤ m.cols → m.cols < c + k → m.cols < m.rows → forward r z k c m e = .ub := by
    intro k
    induction k with
    | zero => intro c e m a1 a2 a3 a4; omega
    | succ k ih =>
      intro c e m a1 a2 a3 a4
      rw [forward, if_neg (by omega)]
      by_cases hc : m.cols ≤ c
      · rw [if_pos hc]
      · rw [if_neg hc]
        obtain ⟨m1, e1, s1, s2, s3, s4⟩ := step_ok r hz m c e
        rw [s1, Res.bind_ok]
        exact ih (c + 1) e1 m1 (by omega) (by omega) (by omega) (by omega)
  unfold gauss
  rw [if_neg (by omega)]
  simp only [Int.toNat_natCast]
  rw [key n 0 0 m (Nat.le_refl _) (Nat.zero_le _) (by omega) h2]
  rfl

/-- A case of the theorems: `25 a + 4 b = 12` and `13 a + 7 b = 11`. -/
example : (gauss id (tiny id (1 / 10 ^ 12)) ⟨2, 3, fun i j => if i = 0 then (if j = 0 then 25 else if j = 1 then 4 else 12) else (if j = 0 then 13 else if j = 1 then 7 else 11)⟩ (-1)).map
    (fun p => (p.2, p.1.at_ 0 2, p.1.at_ 1 2)) = .ok (2, 40 / 123, 119 / 123) := by decide +kernel

end Verif.Matrix
