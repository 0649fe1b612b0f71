import Verif.MathFn.Lemmas

namespace Verif.MathFn
open Verif.Flt
open D

/-! ## Adding a half -/

theorem trunc_nonneg {q : ℚ} {n : ℤ} (h0 : 0 ≤ n) (h1 : (n : ℚ) ≤ q) (h2 : q < n + 1) : trunc q = n := by
  have : (0 : ℚ) ≤ n := by exact_mod_cast h0
  unfold trunc
  rw [if_pos (by linarith), Int.floor_eq_iff]
  exact ⟨h1, h2⟩

theorem trunc_neg (q : ℚ) : trunc (-q) = -trunc q := by
  unfold trunc
  rcases lt_trichotomy q 0 with h | h | h
  · rw [if_pos (by linarith), if_neg (by linarith), Int.floor_neg]
  · subst h; simp
  · rw [if_neg (by linarith), if_pos h.le, Int.ceil_neg]

/-- Between a half and `2^52` the addition never reaches the next integer. -/
theorem half_mid (R : Rounding) {d : ℚ} (h : IsDouble d) (h1 : 1 / 2 ≤ d) (h2 : d < 2 ^ 52) :
    R.rnd (d + 1 / 2) < ⌊d + 1 / 2⌋ + 1 := by
  obtain ⟨n, hn⟩ : ∃ n, n = ⌊d + 1 / 2⌋ := ⟨_, rfl⟩
  rw [← hn]
  have f1 : (n : ℚ) ≤ d + 1 / 2 := by rw [hn]; exact Int.floor_le _
  have f2 : d + 1 / 2 < n + 1 := by rw [hn]; exact Int.lt_floor_add_one _
  have n1 : 1 ≤ n := by rw [hn]; exact Int.le_floor.2 (by push_cast; linarith)
  have n1q : (1 : ℚ) ≤ n := by exact_mod_cast n1
  by_cases hle : d + 1 / 2 ≤ n
  · have n2 : n ≤ 2 ^ 52 := by
      have : (n : ℚ) < 2 ^ 52 + 1 := by linarith
      have : n < 2 ^ 52 + 1 := by exact_mod_cast this
      omega
    have := R.le_of_double (isDouble_int n (by rw [abs_le]; omega)) hle
    linarith
  · push Not at hle
    have n2 : n < 2 ^ 52 := by
      by_contra hc
      push Not at hc
      -- from `2^51` on doubles are multiples of a half
      have hc' : (2 : ℚ) ^ 52 ≤ n := by exact_mod_cast hc
      obtain ⟨m, hm⟩ := isDouble_mult h (-1) (by rw [abs_of_pos (by linarith)]; norm_num at hc' ⊢; linarith)
      norm_num at hm
      rw [hm] at f2 hle h2
      have a1 : (m : ℚ) < 2 * n + 1 := by linarith
      have a2 : (2 * n - 1 : ℚ) < m := by linarith
      have a3 : (m : ℚ) < 2 ^ 53 := by linarith
      have a1' : m < 2 * n + 1 := by exact_mod_cast a1
      have a2' : 2 * n - 1 < m := by exact_mod_cast a2
      have a3' : m < 2 ^ 53 := by exact_mod_cast a3
      omega
    obtain ⟨k, hk⟩ : ∃ k, k = Nat.log 2 n.toNat := ⟨_, rfl⟩
    have k1 : 2 ^ k ≤ n.toNat := by rw [hk]; exact Nat.pow_log_le_self 2 (by omega)
    have k2 : n.toNat < 2 ^ (k + 1) := by rw [hk]; exact Nat.lt_pow_succ_log_self (by norm_num) _
    have hk51 : k ≤ 51 := by
      by_contra hc
      have : 2 ^ 52 ≤ 2 ^ k := Nat.pow_le_pow_right (by norm_num) (by omega)
      omega
    obtain ⟨j, hj⟩ : ∃ j, j = 52 - k := ⟨_, rfl⟩
    have hjk : k + j = 52 := by omega
    have hj1 : 1 ≤ j := by omega
    -- the gap of the binade
    obtain ⟨g, hg⟩ : ∃ g : ℚ, g = 2 ^ (-(j : ℤ)) := ⟨_, rfl⟩
    have g0 : 0 < g := by rw [hg]; exact zpow_pos (by norm_num) _
    have hgj : g * 2 ^ j = 1 := by rw [hg, ← zpow_natCast, ← zpow_add₀ (by norm_num), neg_add_cancel, zpow_zero]
    have hg2 : g ≤ 1 / 2 := by
      rw [hg, show (1 : ℚ) / 2 = 2 ^ (-1 : ℤ) by norm_num]
      exact zpow_le_zpow_right₀ (by norm_num) (by omega)
    have k1q : (2 : ℚ) ^ k ≤ n := by
      have : (2 : ℤ) ^ k ≤ n := by
        have := Int.ofNat_le.2 k1
        push_cast at this
        omega
      exact_mod_cast this
    have hdle : d ≤ n + 1 / 2 - g := by
      by_cases hsmall : d ≤ 2 ^ k
      · linarith
      · push Not at hsmall
        obtain ⟨m, hm⟩ := isDouble_mult h (-(j : ℤ)) (by
          rw [abs_of_pos (by linarith)]
          have : (52 : ℤ) + -(j : ℤ) = (k : ℕ) := by omega
          rw [this, zpow_natCast]; exact hsmall)
        rw [← hg] at hm
        obtain ⟨j', rfl⟩ : ∃ j', j = j' + 1 := ⟨j - 1, by omega⟩
        have e : (n : ℚ) + 1 / 2 = (((2 * n + 1) * 2 ^ j' : ℤ) : ℚ) * g := by
          push_cast
          have : (2 : ℚ) ^ j' * g = 1 / 2 := by
            have : g * (2 ^ j' * 2) = 1 := by rw [← pow_succ]; exact hgj
            linarith
          rw [mul_assoc, this]; ring
        have hlt : (m : ℚ) < (((2 * n + 1) * 2 ^ j' : ℤ) : ℚ) := by
          have : d < n + 1 / 2 := by linarith
          rw [hm, e] at this
          exact lt_of_mul_lt_mul_right this g0.le
        have hlt' : m < (2 * n + 1) * 2 ^ j' := by exact_mod_cast hlt
        have hlt2 : (m : ℚ) ≤ (((2 * n + 1) * 2 ^ j' : ℤ) : ℚ) - 1 := by
          have : m ≤ (2 * n + 1) * 2 ^ j' - 1 := by omega
          exact_mod_cast this
        rw [e, hm]
        have := mul_le_mul_of_nonneg_right hlt2 g0.le
        linarith
    have hdbl : IsDouble ((n : ℚ) + 1 - g) := by
      refine ⟨(n + 1) * 2 ^ j - 1, -(j : ℤ), ?_, ?_⟩
      · have : (n + 1) * 2 ^ j ≤ 2 ^ 53 := by
          have a : n + 1 ≤ 2 ^ (k + 1) := by
            have := Int.ofNat_lt.2 k2
            push_cast at this
            omega
          have b : (n + 1) * 2 ^ j ≤ 2 ^ (k + 1) * 2 ^ j := mul_le_mul_of_nonneg_right a (by positivity)
          rw [← pow_add, show k + 1 + j = 53 by omega] at b
          exact b
        have : 0 < (n + 1) * 2 ^ j := by positivity
        rw [abs_le]; omega
      · rw [← hg]
        push_cast
        rw [sub_mul, mul_assoc, mul_comm ((2 : ℚ) ^ j), hgj]; ring
    have := R.le_of_double hdbl (show d + 1 / 2 ≤ n + 1 - g by linarith)
    linarith

/-- The result for a number that is not negative. -/
theorem half_pos {d : ℚ} (h : IsDouble d) (h0 : 0 ≤ d) :
    (Misrounded d → trunc (ieee.rnd (d + 1 / 2)) = ⌊d + 1 / 2⌋ + 1) ∧ (¬Misrounded d → trunc (ieee.rnd (d + 1 / 2)) = ⌊d + 1 / 2⌋) := by
  by_cases c1 : d < 1 / 2
  · -- below a half
    have hf : ⌊d + 1 / 2⌋ = 0 := by rw [Int.floor_eq_iff]; push_cast; constructor <;> linarith
    rw [hf]
    have hnn : (0 : ℚ) ≤ ieee.rnd (d + 1 / 2) := ieee.ge_of_double ⟨0, 0, by norm_num, by simp⟩ (by linarith)
    constructor
    · rintro (hm | ⟨hm, _⟩)
      · rw [abs_of_nonneg h0] at hm
        rw [hm, show (1 : ℚ) / 2 - 1 / 2 ^ 54 + 1 / 2 = 1 - 1 / 2 ^ 54 by ring, ieee_at (L := -1) (by norm_num) (by norm_num)]
        have : ((1 : ℚ) - 1 / 2 ^ 54) / 2 ^ ((-1 : ℤ) - 52) = ((2 ^ 53 - 1 : ℤ) : ℚ) + 1 / 2 := by norm_num
        rw [this, rne_half, if_neg (by norm_num)]
        norm_num
        exact trunc_int 1
      · rw [abs_of_nonneg h0] at hm
        norm_num at hm
        linarith
    · intro hm
      apply trunc_nonneg (le_refl _) (by push_cast; exact hnn)
      push_cast
      have hle : d ≤ 1 / 2 - 1 / 2 ^ 53 := by
        by_cases hq : d ≤ 1 / 4
        · norm_num; linarith
        · push Not at hq
          obtain ⟨m, hm'⟩ := isDouble_mult h (-54) (by rw [abs_of_nonneg h0]; norm_num; linarith)
          norm_num at hm'
          rw [hm'] at c1 hm ⊢
          have a1 : (m : ℚ) < 2 ^ 53 := by linarith
          have a1' : m < 2 ^ 53 := by exact_mod_cast a1
          have a2 : m ≠ 2 ^ 53 - 1 := by
            rintro rfl
            apply hm
            left
            norm_num
          have a3 : m ≤ 2 ^ 53 - 2 := by omega
          have a4 : (m : ℚ) ≤ 2 ^ 53 - 2 := by exact_mod_cast a3
          norm_num at a4 ⊢
          linarith
      have := ieee.le_of_double (x := d + 1 / 2) (y := 1 - 1 / 2 ^ 53) ⟨2 ^ 53 - 1, -53, by norm_num, by norm_num⟩ (by linarith)
      norm_num at this ⊢
      linarith
  · push Not at c1
    have hne : d ≠ 1 / 2 - 1 / 2 ^ 54 := by rintro rfl; norm_num at c1
    by_cases c2 : d < 2 ^ 52
    · refine ⟨fun hm => ?_, fun _ => ?_⟩
      · rcases hm with hm | ⟨hm, _⟩
        · rw [abs_of_nonneg h0] at hm; exact absurd hm hne
        · rw [abs_of_nonneg h0] at hm; linarith
      · have hl : (0 : ℤ) ≤ ⌊d + 1 / 2⌋ := Int.floor_nonneg.2 (by linarith)
        refine trunc_nonneg hl ?_ (half_mid ieee h c1 c2)
        have hfl := Int.floor_le (d + 1 / 2)
        refine ieee.ge_of_double (isDouble_int _ ?_) hfl
        have : (⌊d + 1 / 2⌋ : ℚ) < 2 ^ 52 + 1 := by linarith
        have : ⌊d + 1 / 2⌋ < 2 ^ 52 + 1 := by exact_mod_cast this
        rw [abs_le]; omega
    · push Not at c2
      have hint : ∃ N : ℤ, d = N := by
        obtain ⟨m, hm⟩ := isDouble_mult h (-1) (by rw [abs_of_nonneg h0]; norm_num at c2 ⊢; linarith)
        by_cases c3 : d = 2 ^ 52
        · exact ⟨2 ^ 52, by rw [c3]; norm_num⟩
        · obtain ⟨m, hm⟩ := isDouble_mult h 0 (by
            rw [abs_of_nonneg h0]
            have := lt_of_le_of_ne c2 (Ne.symm c3)
            norm_num at this ⊢; linarith)
          exact ⟨m, by rw [hm]; simp⟩
      obtain ⟨N, rfl⟩ := hint
      have c2' : 2 ^ 52 ≤ N := by exact_mod_cast c2
      have hf : ⌊(N : ℚ) + 1 / 2⌋ = N := by rw [Int.floor_eq_iff]; constructor <;> linarith
      rw [hf]
      by_cases c3 : (N : ℚ) < 2 ^ 53
      · have c3' : N < 2 ^ 53 := by exact_mod_cast c3
        have e : ieee.rnd ((N : ℚ) + 1 / 2) = ((if N % 2 = 0 then N else N + 1 : ℤ) : ℚ) := by
          have hup : (N : ℚ) + 1 / 2 < 2 ^ 53 := by
            have : N ≤ 2 ^ 53 - 1 := by omega
            have : (N : ℚ) ≤ 2 ^ 53 - 1 := by exact_mod_cast this
            linarith
          rw [ieee_at (L := 52) (by rw [abs_of_nonneg (by linarith)]; norm_num at c2 ⊢; linarith)
            (by rw [abs_of_nonneg (by linarith)]; norm_num at hup ⊢; linarith)]
          norm_num
          rw [rne_half]
          split <;> simp
        rw [e, trunc_int]
        refine ⟨fun hm => ?_, fun hm => ?_⟩
        · rcases hm with hm | ⟨_, _, n, hn⟩
          · rw [abs_of_nonneg h0] at hm; exact absurd hm hne
          · have : N = 2 * n + 1 := by exact_mod_cast hn
            rw [if_neg (by omega)]
        · rw [if_pos]
          by_contra hodd
          apply hm
          refine Or.inr ⟨?_, by rw [abs_of_nonneg h0]; exact c3, N / 2, ?_⟩
          · rw [abs_of_nonneg h0]
            have : 2 ^ 52 < N := by omega
            exact_mod_cast this
          · have : N = 2 * (N / 2) + 1 := by omega
            exact_mod_cast this
      · push Not at c3
        have e : ieee.rnd ((N : ℚ) + 1 / 2) = N := by
          obtain ⟨m, hm⟩ := ieee_mult (x := N + 1 / 2) (k := 1) (by rw [abs_of_nonneg (by linarith)]; norm_num at c3 ⊢; linarith)
          have hN : ∃ m' : ℤ, (N : ℚ) = m' * (2 : ℚ) ^ (1 : ℤ) := by
            by_cases c4 : (N : ℚ) = 2 ^ 53
            · exact ⟨2 ^ 52, by rw [c4]; norm_num⟩
            · refine isDouble_mult h 1 ?_
              have := lt_of_le_of_ne c3 (Ne.symm c4)
              rw [abs_of_nonneg h0]
              norm_num at this ⊢; linarith
          obtain ⟨m', hm'⟩ := hN
          have hnear := ieee.nearest (N + 1 / 2) N h
          rw [show (N : ℚ) - (N + 1 / 2) = -(1 / 2) by ring, abs_neg, abs_of_pos (by norm_num : (0 : ℚ) < 1 / 2)] at hnear
          have hb := abs_le.1 hnear
          rw [hm] at hb ⊢
          rw [hm'] at hb
          rw [zpow_one] at hb
          have : m = m' := by
            apply int_eq_of_lt
            rw [abs_lt]; constructor <;> linarith
          rw [this, ← hm']
        rw [e, trunc_int]
        refine ⟨fun hm => ?_, fun _ => rfl⟩
        rcases hm with hm | ⟨_, hm, _⟩
        · rw [abs_of_nonneg h0] at hm; exact absurd hm hne
        · rw [abs_of_nonneg h0] at hm; linarith

theorem misrounded_neg {d : ℚ} : Misrounded (-d) ↔ Misrounded d := by
  unfold Misrounded
  rw [abs_neg]
  refine or_congr Iff.rfl (and_congr Iff.rfl (and_congr Iff.rfl ⟨?_, ?_⟩))
  · rintro ⟨n, hn⟩; exact ⟨-n - 1, by push_cast; linarith⟩
  · rintro ⟨n, hn⟩; exact ⟨-n - 1, by push_cast; linarith⟩

end Verif.MathFn
