import Verif.MathFn.Spec
import Verif.Histo.Props2

namespace Verif.MathFn
open Verif.Flt
open D

/-! ## Doubles -/

theorem isDouble_sixteenth (m : ℤ) (h : |m| ≤ 2 ^ 53) : IsDouble ((m : ℚ) / 16) :=
  ⟨m, -4, h, by rw [zpow_neg]; norm_num; ring⟩

/-- A large double is a multiple of a large power of two. -/
theorem isDouble_mult {x : ℚ} (h : IsDouble x) (k : ℤ) (hx : (2 : ℚ) ^ (52 + k) < |x|) : ∃ m : ℤ, x = m * (2 : ℚ) ^ k := by
  obtain ⟨m, e, hm, rfl⟩ := h
  by_cases he : k ≤ e
  · obtain ⟨j, hj⟩ : ∃ j : ℕ, e = k + j := ⟨(e - k).toNat, by omega⟩
    refine ⟨m * 2 ^ j, ?_⟩
    rw [hj, zpow_add₀ (by norm_num), zpow_natCast]
    push_cast; ring
  · exfalso
    have h1 : |(m : ℚ)| ≤ 2 ^ 53 := by exact_mod_cast hm
    rw [abs_mul, abs_of_pos (zpow_pos (by norm_num : (0 : ℚ) < 2) e)] at hx
    have h2 : (2 : ℚ) ^ e ≤ 2 ^ (k - 1) := zpow_le_zpow_right₀ (by norm_num) (by omega)
    have h3 : (2 : ℚ) ^ (52 + k) = 2 ^ 53 * 2 ^ (k - 1) := by
      rw [← zpow_natCast (2 : ℚ) 53, ← zpow_add₀ (by norm_num)]
      congr 1; push_cast; ring
    rw [h3] at hx
    have h4 : |(m : ℚ)| * 2 ^ e ≤ 2 ^ 53 * 2 ^ (k - 1) :=
      mul_le_mul h1 h2 (zpow_nonneg (by norm_num) _) (by norm_num)
    linarith

theorem ieee_at {x : ℚ} {L : ℤ} (h1 : (2 : ℚ) ^ L ≤ |x|) (h2 : |x| < (2 : ℚ) ^ (L + 1)) :
    ieee.rnd x = rne (x / 2 ^ (L - 52)) * 2 ^ (L - 52) := by
  have hp : (0 : ℚ) < 2 ^ L := zpow_pos (by norm_num) _
  have hx : 0 < |x| := lt_of_lt_of_le hp h1
  have a : L ≤ Int.log 2 |x| := by
    rw [← Int.zpow_le_iff_le_log (by norm_num) hx]; exact_mod_cast h1
  have b : Int.log 2 |x| < L + 1 := by
    rw [← Int.lt_zpow_iff_log_lt (by norm_num) hx]; exact_mod_cast h2
  have hL : Int.log 2 |x| = L := by omega
  show ieeeRnd x = _
  unfold ieeeRnd
  rw [if_neg (abs_pos.1 hx)]
  unfold ulp
  rw [hL]

/-- The rounded value is a multiple of every power of two that the argument's last place is a multiple of. -/
theorem ieee_mult {x : ℚ} {k : ℤ} (h : (2 : ℚ) ^ (52 + k) ≤ |x|) : ∃ m : ℤ, ieee.rnd x = m * (2 : ℚ) ^ k := by
  have hp : (0 : ℚ) < 2 ^ (52 + k) := zpow_pos (by norm_num) _
  have hx : 0 < |x| := lt_of_lt_of_le hp h
  have a : 52 + k ≤ Int.log 2 |x| := by
    rw [← Int.zpow_le_iff_le_log (by norm_num) hx]; exact_mod_cast h
  obtain ⟨j, hj⟩ : ∃ j : ℕ, Int.log 2 |x| - 52 = k + j := ⟨(Int.log 2 |x| - 52 - k).toNat, by omega⟩
  refine ⟨rne (x / ulp x) * 2 ^ j, ?_⟩
  show ieeeRnd x = _
  unfold ieeeRnd
  rw [if_neg (abs_pos.1 hx)]
  have : ulp x = 2 ^ k * 2 ^ j := by
    unfold ulp
    rw [hj, zpow_add₀ (by norm_num), zpow_natCast]
  rw [this]
  push_cast; ring

theorem rne_int (n : ℤ) : rne (n : ℚ) = n := by
  unfold rne
  simp

theorem rne_half (n : ℤ) : rne ((n : ℚ) + 1 / 2) = if n % 2 = 0 then n else n + 1 := by
  have h1 : ⌊(n : ℚ) + 1 / 2⌋ = n := by
    rw [Int.floor_eq_iff]; constructor <;> linarith
  have h2 : Int.fract ((n : ℚ) + 1 / 2) = 1 / 2 := by
    unfold Int.fract; rw [h1]; ring
  unfold rne
  rw [h1, h2]
  simp

theorem int_eq_of_lt {a b : ℤ} (h : |(a : ℚ) - b| < 1) : a = b := by
  have : |a - b| < 1 := by exact_mod_cast h
  have := abs_lt.1 this
  omega

/-! ## `roundingErrorPart` -/

theorem trunc_abs (q : ℚ) : |q - trunc q| ≤ |q| ∧ |q - trunc q| < 1 ∧ (0 ≤ q → 0 ≤ q - trunc q) ∧ (q < 0 → q - trunc q ≤ 0) := by
  unfold trunc
  split
  · next h =>
    have h1 := Int.floor_le q
    have h2 := Int.lt_floor_add_one q
    have h3 : (0 : ℚ) ≤ ⌊q⌋ := by exact_mod_cast Int.floor_nonneg.2 h
    rw [abs_of_nonneg h, abs_of_nonneg (by linarith)]
    exact ⟨by linarith, by linarith, fun _ => (by linarith), fun h' => absurd h' (not_lt.2 h)⟩
  · next h =>
    push Not at h
    have h1 := Int.le_ceil q
    have h2 := Int.ceil_lt_add_one q
    have h3 : (⌈q⌉ : ℚ) ≤ 0 := by
      have : ⌈q⌉ ≤ 0 := Int.ceil_le.2 (by push_cast; linarith)
      exact_mod_cast this
    rw [abs_of_neg h, abs_of_nonpos (by linarith)]
    exact ⟨by linarith, by linarith, fun h' => absurd h (not_lt.2 h'), fun _ => (by linarith)⟩

theorem trunc_int (n : ℤ) : trunc (n : ℚ) = n := by
  unfold trunc
  split <;> simp

theorem modf_double {q : ℚ} (h : IsDouble q) : IsDouble (q - trunc q) := by
  obtain ⟨m, e, hm, hq⟩ := h
  by_cases he : 0 ≤ e
  · obtain ⟨j, rfl⟩ : ∃ j : ℕ, e = j := ⟨e.toNat, by omega⟩
    have : q = ((m * 2 ^ j : ℤ) : ℚ) := by rw [hq]; push_cast; rw [zpow_natCast]
    rw [this, trunc_int, sub_self]
    exact ⟨0, 0, by norm_num, by simp⟩
  · obtain ⟨j, hj⟩ : ∃ j : ℕ, -e = j := ⟨(-e).toNat, by omega⟩
    have he' : e = -(j : ℤ) := by omega
    subst he'
    have hp : (0 : ℚ) < 2 ^ (-(j : ℤ)) := zpow_pos (by norm_num) _
    have hjj : (2 : ℚ) ^ j * 2 ^ (-(j : ℤ)) = 1 := by
      rw [← zpow_natCast, ← zpow_add₀ (by norm_num), add_neg_cancel, zpow_zero]
    have hv : q - trunc q = ((m - trunc q * 2 ^ j : ℤ) : ℚ) * 2 ^ (-(j : ℤ)) := by
      rw [Int.cast_sub, Int.cast_mul, sub_mul, ← hq, mul_assoc]
      push_cast
      rw [hjj, mul_one]
    refine ⟨m - trunc q * 2 ^ j, -(j : ℤ), ?_, hv⟩
    have h1 := (trunc_abs q).1
    rw [hv] at h1
    nth_rw 2 [hq] at h1
    rw [abs_mul, abs_mul] at h1
    have h2 := le_of_mul_le_mul_right h1 (abs_pos.2 hp.ne')
    have h3 : |m - trunc q * 2 ^ j| ≤ |m| := by exact_mod_cast h2
    exact h3.trans hm

/-- `roundingErrorPart` is the difference to a nearest integer. -/
theorem rep_fin (R : Rounding) {q : ℚ} (h : IsDouble q) :
    ∃ n : ℤ, roundingErrorPart R (fin q) = fin (q - n) ∧ |q - n| ≤ 1 / 2 := by
  have hd := modf_double h
  obtain ⟨_, ha, h0, h1⟩ := trunc_abs q
  have ha' := abs_lt.1 ha
  unfold roundingErrorPart modf
  simp only []
  by_cases hgt : 1 / 2 < q - trunc q
  · have hm : ∃ m : ℤ, q - trunc q = m * (2 : ℚ) ^ (-53 : ℤ) :=
      isDouble_mult hd (-53) (by norm_num; rw [abs_of_pos (by linarith)]; linarith)
    obtain ⟨m, hm⟩ := hm
    have e1 : R.rnd (q - trunc q + -1) = q - trunc q - 1 := by
      rw [← sub_eq_add_neg]
      refine R.exact ⟨m - 2 ^ 53, -53, ?_, ?_⟩
      · rw [hm] at hgt ha'
        norm_num at hgt ha'
        have b1 : (2 : ℚ) ^ 52 < m := by linarith
        have b2 : (m : ℚ) < 2 ^ 53 := by linarith
        have b1' : 2 ^ 52 < m := by exact_mod_cast b1
        have b2' : m < 2 ^ 53 := by exact_mod_cast b2
        rw [abs_le]; omega
      · rw [hm]; push_cast; norm_num; ring
    refine ⟨trunc q + 1, ?_, ?_⟩
    · simp only [lt, decide_eq_true hgt, if_true, sub, neg, add, e1]
      rw [decide_eq_false (by linarith)]
      simp only [Bool.false_eq_true, if_false]
      push_cast; ring_nf
    · push_cast
      rw [abs_le]; constructor <;> linarith
  · simp only [lt, decide_eq_false hgt, Bool.false_eq_true, if_false]
    by_cases hlt : q - trunc q < -1 / 2
    · have hm : ∃ m : ℤ, q - trunc q = m * (2 : ℚ) ^ (-53 : ℤ) :=
        isDouble_mult hd (-53) (by norm_num; rw [abs_of_neg (by linarith)]; linarith)
      obtain ⟨m, hm⟩ := hm
      have e1 : R.rnd (q - trunc q + 1) = q - trunc q + 1 := by
        refine R.exact ⟨m + 2 ^ 53, -53, ?_, ?_⟩
        · rw [hm] at hlt ha'
          norm_num at hlt ha'
          have b1 : (m : ℚ) < -2 ^ 52 := by linarith
          have b2 : -(2 : ℚ) ^ 53 < m := by linarith
          have b1' : m < -2 ^ 52 := by exact_mod_cast b1
          have b2' : -2 ^ 53 < m := by exact_mod_cast b2
          rw [abs_le]; omega
        · rw [hm]; push_cast; norm_num; ring
      refine ⟨trunc q - 1, ?_, ?_⟩
      · simp only [decide_eq_true hlt, if_true, add, e1]
        push_cast; ring_nf
      · push_cast
        rw [abs_le]; constructor <;> linarith
    · simp only [decide_eq_false hlt, Bool.false_eq_true, if_false]
      refine ⟨trunc q, rfl, ?_⟩
      rw [abs_le]; constructor <;> linarith

theorem rep_lt (R : Rounding) {q : ℚ} (h : IsDouble q) :
    lt (D.abs (roundingErrorPart R (fin q))) (fin (1 / 16)) = true ↔ NearInt q := by
  obtain ⟨n, h1, h2⟩ := rep_fin R h
  rw [h1]
  simp only [D.abs, lt, decide_eq_true_eq]
  refine ⟨fun h => ⟨n, h⟩, fun ⟨n', h'⟩ => ?_⟩
  have : n = n' := by
    apply int_eq_of_lt
    rw [abs_lt] at *
    rw [abs_le] at h2
    constructor <;> linarith
  rw [this]; exact h'

theorem rep_ge (R : Rounding) {q : ℚ} (h : IsDouble q) :
    ge (D.abs (roundingErrorPart R (fin q))) (fin (1 / 16)) = true ↔ ¬NearInt q := by
  rw [← rep_lt R h]
  obtain ⟨n, h1, h2⟩ := rep_fin R h
  rw [h1]
  simp [D.abs, lt, ge]

/-! ## Adding a sixteenth -/

theorem not_near {x : ℚ} {n : ℤ} (h1 : 1 / 16 ≤ |x - n|) (h2 : |x - n| ≤ 1 / 8) : ¬NearInt x := by
  rintro ⟨n', h'⟩
  have : n = n' := by
    apply int_eq_of_lt
    rw [abs_lt] at *
    rw [abs_le] at h2
    constructor <;> linarith
  rw [this] at h1
  linarith

/-- Up to `2^49`, one of the two neighbours is seen to be off. -/
theorem neighbours_small (R : Rounding) {d : ℚ} {n : ℤ} (hd : |d| ≤ 2 ^ 49) (hn : |d - n| < 1 / 16) :
    ¬(NearInt (R.rnd (d + 1 / 16)) ∧ NearInt (R.rnd (d - 1 / 16))) := by
  have hd' := abs_le.1 hd
  have hn' := abs_lt.1 hn
  have b1 : (n : ℚ) < 2 ^ 49 + 1 := by linarith
  have b2 : -(2 : ℚ) ^ 49 - 1 < n := by linarith
  have c1 : n < 2 ^ 49 + 1 := by exact_mod_cast b1
  have c2 : -2 ^ 49 - 1 < n := by exact_mod_cast b2
  rintro ⟨hp, hm⟩
  by_cases hle : (d ≤ n ∧ n ≠ -2 ^ 49) ∨ n = 2 ^ 49
  · have hdn : d ≤ n := by
      rcases hle with h | h
      · exact h.1
      · rw [h]; push_cast; exact hd'.2
    have hne : n ≠ -2 ^ 49 := by
      rcases hle with h | h
      · exact h.2
      · rw [h]; norm_num
    have u : R.rnd (d - 1 / 16) ≤ n - 1 / 16 := by
      refine R.le_of_double ?_ (by linarith)
      have := isDouble_sixteenth (16 * n - 1) (by rw [abs_le]; omega)
      push_cast at this
      convert this using 1; ring
    have l : n - 1 / 8 ≤ R.rnd (d - 1 / 16) := by
      refine R.ge_of_double ?_ (by linarith)
      have := isDouble_sixteenth (16 * n - 2) (by rw [abs_le]; omega)
      push_cast at this
      convert this using 1; ring
    refine not_near (n := n) ?_ ?_ hm
    · rw [abs_of_nonpos (by linarith)]; linarith
    · rw [abs_of_nonpos (by linarith)]; linarith
  · push Not at hle
    have hdn : (n : ℚ) ≤ d := by
      by_cases h : d ≤ n
      · have := hle.1 h
        rw [this]; push_cast; exact hd'.1
      · exact (not_le.1 h).le
    have u : n + 1 / 16 ≤ R.rnd (d + 1 / 16) := by
      refine R.ge_of_double ?_ (by linarith)
      have := isDouble_sixteenth (16 * n + 1) (by rw [abs_le]; omega)
      push_cast at this
      convert this using 1; ring
    have l : R.rnd (d + 1 / 16) ≤ n + 1 / 8 := by
      refine R.le_of_double ?_ (by linarith)
      have := isDouble_sixteenth (16 * n + 2) (by rw [abs_le]; omega)
      push_cast at this
      convert this using 1; ring
    refine not_near (n := n) ?_ ?_ hp
    · rw [abs_of_nonneg (by linarith)]; linarith
    · rw [abs_of_nonneg (by linarith)]; linarith

/-- Above `2^49` both neighbours round back. -/
theorem neighbours_large_pos {n : ℤ} (hd : IsDouble (n : ℚ)) (hn : 2 ^ 49 < n) {s : ℚ} (hs : s = 1 / 16 ∨ s = -1 / 16) :
    ieee.rnd (n + s) = n := by
  have hnq : (2 : ℚ) ^ 49 + 1 ≤ n := by exact_mod_cast hn
  have hs1 : |s| = 1 / 16 := by rcases hs with rfl | rfl <;> norm_num
  have hs2 := abs_le.1 hs1.le
  have hx : 0 < (n : ℚ) + s := by linarith
  by_cases hL : (n : ℚ) + s < 2 ^ 50
  · rw [ieee_at (L := 49) (by rw [abs_of_pos hx]; norm_num at hnq ⊢; linarith) (by rw [abs_of_pos hx]; norm_num at hL ⊢; linarith)]
    rcases hs with rfl | rfl
    · have : ((n : ℚ) + 1 / 16) / 2 ^ ((49 : ℤ) - 52) = ((8 * n : ℤ) : ℚ) + 1 / 2 := by push_cast; norm_num; ring
      rw [this, rne_half, if_pos (by omega)]
      push_cast; norm_num; ring
    · have : ((n : ℚ) + -1 / 16) / 2 ^ ((49 : ℤ) - 52) = ((8 * n - 1 : ℤ) : ℚ) + 1 / 2 := by push_cast; norm_num; ring
      rw [this, rne_half, if_neg (by omega)]
      push_cast; norm_num; ring
  · push Not at hL
    obtain ⟨m, hm⟩ := ieee_mult (x := n + s) (k := -2) (by rw [abs_of_pos hx]; norm_num at hL ⊢; linarith)
    have hnear := ieee.nearest (n + s) n hd
    rw [show (n : ℚ) - (n + s) = -s by ring, abs_neg, hs1] at hnear
    rw [hm] at hnear ⊢
    norm_num at hnear ⊢
    have := abs_le.1 hnear
    have : m = 4 * n := by
      apply int_eq_of_lt
      push_cast
      rw [abs_lt]; constructor <;> linarith
    rw [this]; push_cast; ring

theorem neighbours_large {n : ℤ} (hd : IsDouble (n : ℚ)) (hn : 2 ^ 49 < |n|) {s : ℚ} (hs : s = 1 / 16 ∨ s = -1 / 16) :
    ieee.rnd (n + s) = n := by
  rcases le_or_gt 0 n with h | h
  · rw [abs_of_nonneg h] at hn
    exact neighbours_large_pos hd hn hs
  · rw [abs_of_neg h] at hn
    have := neighbours_large_pos (n := -n) (s := -s) (by push_cast; exact isDouble_neg hd) hn
      (by rcases hs with rfl | rfl
          · right; norm_num
          · left; norm_num)
    push_cast at this
    rw [show (n : ℚ) + s = -(-n + -s) by ring, Verif.Histo.ieee_neg, this]
    ring

theorem near_large {d : ℚ} (h : IsDouble d) (hl : 2 ^ 49 < |d|) (hn : NearInt d) : ∃ n : ℤ, d = n := by
  obtain ⟨n, hn⟩ := hn
  obtain ⟨m, hm⟩ := isDouble_mult h (-3) (by norm_num at hl ⊢; linarith)
  have : m = 8 * n := by
    apply int_eq_of_lt
    rw [hm] at hn
    norm_num at hn
    have := abs_lt.1 hn
    push_cast
    rw [abs_lt]; constructor <;> linarith
  refine ⟨n, ?_⟩
  rw [hm, this]; push_cast; norm_num; ring

end Verif.MathFn
