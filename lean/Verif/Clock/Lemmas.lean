import Verif.Clock.Spec

namespace Verif.Clock

open Verif.Flt

theorem toU32_ok {x : ℚ} {n : Nat} (h : (⌊x⌋ : ℤ) = n) (hn : n < 2 ^ 32) : toU32 x = .ok n := by
  have h1 : (n : ℚ) ≤ x := by have := Int.floor_le x; rw [h] at this; exact_mod_cast this
  have h2 : x < n + 1 := by have := Int.lt_floor_add_one x; rw [h] at this; exact_mod_cast this
  have h3 : (n : ℚ) + 1 ≤ 2 ^ 32 := by exact_mod_cast hn
  have h0 : (0 : ℚ) ≤ n := by positivity
  unfold toU32
  rw [if_neg (by push Not; constructor <;> linarith), h]
  rfl

theorem toU64_ok {x : ℚ} {n : Nat} (h : (⌊x⌋ : ℤ) = n) (hn : n < 2 ^ 64) : toU64 x = .ok n := by
  have h1 : (n : ℚ) ≤ x := by have := Int.floor_le x; rw [h] at this; exact_mod_cast this
  have h2 : x < n + 1 := by have := Int.lt_floor_add_one x; rw [h] at this; exact_mod_cast this
  have h3 : (n : ℚ) + 1 ≤ 2 ^ 64 := by exact_mod_cast hn
  have h0 : (0 : ℚ) ≤ n := by positivity
  unfold toU64
  rw [if_neg (by push Not; constructor <;> linarith), h]
  rfl

theorem isDouble_nat (n : Nat) (h : n ≤ 2 ^ 53) : IsDouble (n : ℚ) := by
  have := isDouble_int (n : ℤ) (by rw [abs_of_nonneg (by omega)]; exact_mod_cast h)
  exact_mod_cast this

theorem isDouble_nat_scale (n : Nat) (h : n ≤ 2 ^ 53) (k : ℤ) {x : ℚ} (hx : x = n * (2 : ℚ) ^ k) : IsDouble x := by
  rw [hx]; exact isDouble_scale (isDouble_nat n h) k

/-- Rounding `k / d` (`d < 2^21`, the quotient at most `2^32`) does not change its ceiling. -/
theorem ceil_rnd (F : Rounding) (k d c : Nat) (hd : 0 < d) (hd2 : d < 2 ^ 21) (hk : k ≤ d * 2 ^ 32)
    (h1 : k ≤ c * d) (h2 : c * d < k + d) : ⌈F.rnd ((k : ℚ) / d)⌉ = (c : ℤ) := by
  have hdq : (0 : ℚ) < d := by exact_mod_cast hd
  have hc32 : c ≤ 2 ^ 32 := by
    by_contra hh
    have : d * 2 ^ 32 + d ≤ c * d := by nlinarith
    omega
  have hle : (k : ℚ) / d ≤ c := by rw [div_le_iff₀ hdq]; exact_mod_cast h1
  have hup : F.rnd ((k : ℚ) / d) ≤ c := F.le_of_double (isDouble_nat c (by omega)) hle
  rw [Int.ceil_eq_iff]
  refine ⟨?_, by exact_mod_cast hup⟩
  push_cast
  have hq0 : (0 : ℚ) ≤ (k : ℚ) / d := by positivity
  by_cases hex : c * d = k
  · have : (k : ℚ) / d = c := by rw [div_eq_iff hdq.ne']; exact_mod_cast hex.symm
    rw [this, F.exact (isDouble_nat c (by omega))]; linarith
  · have h3 : (c : ℚ) * d + 1 ≤ k + d := by exact_mod_cast h2
    have hge : (c : ℚ) - 1 + 1 / d ≤ (k : ℚ) / d := by
      rw [le_div_iff₀ hdq]
      have : ((c : ℚ) - 1 + 1 / d) * d = c * d - d + 1 := by field_simp
      linarith
    have he := F.err ((k : ℚ) / d)
    rw [abs_of_nonneg hq0] at he
    have hq32 : (k : ℚ) / d ≤ 2 ^ 32 := by
      rw [div_le_iff₀ hdq]
      have : (k : ℚ) ≤ d * 2 ^ 32 := by exact_mod_cast hk
      linarith
    have he2 : (k : ℚ) / d / 2 ^ 53 ≤ 1 / 2 ^ 21 := by
      rw [div_le_div_iff₀ (by positivity) (by positivity)]
      linarith
    have hd3 : (1 : ℚ) / 2 ^ 21 < 1 / d := by
      apply one_div_lt_one_div_of_lt hdq
      exact_mod_cast hd2
    have := (abs_le.1 he).1
    linarith

theorem floor_div_nat (k d n : Nat) (hd : 0 < d) (h1 : n * d ≤ k) (h2 : k < (n + 1) * d) :
    ⌊(k : ℚ) / d⌋ = (n : ℤ) := by
  have hdq : (0 : ℚ) < d := by exact_mod_cast hd
  rw [Int.floor_eq_iff]
  constructor
  · push_cast; rw [le_div_iff₀ hdq]; exact_mod_cast h1
  · push_cast; rw [div_lt_iff₀ hdq]; exact_mod_cast h2

/-- The sub-second part with the exact whole part. -/
theorem sub_ok (F : Rounding) (low m p q : Nat) (hm : low * q ≤ 2 ^ 53) (hp : m = q * 2 ^ p) (n : Nat)
    (h1 : n * 2 ^ 32 ≤ low * m) (h2 : low * m < (n + 1) * 2 ^ 32) :
    ⌊F.rnd (F.rnd ((low : ℚ) * m) / 4294967296)⌋ = (n : ℤ) := by
  have hd1 : IsDouble ((low : ℚ) * m) := by
    refine isDouble_nat_scale (low * q) hm p ?_
    rw [hp]; push_cast; rw [zpow_natCast]; ring
  have hd2 : IsDouble ((low : ℚ) * m / 4294967296) := by
    have := isDouble_scale hd1 (-32)
    rw [show ((2 : ℚ) ^ (-32 : ℤ)) = 1 / 4294967296 by norm_num] at this
    rwa [div_eq_mul_one_div]
  rw [F.exact hd1, F.exact hd2]
  have := floor_div_nat (low * m) (2 ^ 32) n (by norm_num) h1 h2
  push_cast at this
  exact this

theorem micro_low (F : Rounding) (t n : Nat) (h1 : n * 2 ^ 32 ≤ t % 2 ^ 32 * 1000000)
    (h2 : t % 2 ^ 32 * 1000000 < (n + 1) * 2 ^ 32) : tfracToMicroSec F t = .ok n := by
  have hl : t % 2 ^ 32 < 2 ^ 32 := Nat.mod_lt _ (by norm_num)
  unfold tfracToMicroSec
  have := sub_ok F (t % 2 ^ 32) 1000000 0 1000000 (by linarith) (by norm_num) n h1 h2
  push_cast at this ⊢
  apply toU32_ok
  · rw [Int.floor_intCast]; exact_mod_cast this
  · linarith

theorem nano_low (F : Rounding) (t n : Nat) (h1 : n * 2 ^ 32 ≤ t % 2 ^ 32 * 1000000000)
    (h2 : t % 2 ^ 32 * 1000000000 < (n + 1) * 2 ^ 32) : tfracToNanoSec F t = .ok n := by
  have hl : t % 2 ^ 32 < 2 ^ 32 := Nat.mod_lt _ (by norm_num)
  unfold tfracToNanoSec
  have := sub_ok F (t % 2 ^ 32) 1000000000 9 1953125 (by linarith) (by norm_num) n h1 h2
  push_cast at this ⊢
  apply toU32_ok
  · rw [Int.floor_intCast]; exact_mod_cast this
  · linarith

theorem secMicro_ok (F : Rounding) (s us c : Nat) (hs : s < 2 ^ 32) (hu : us < 1000000)
    (h1 : us * 2 ^ 32 ≤ c * 1000000) (h2 : c * 1000000 < us * 2 ^ 32 + 1000000) :
    secMicroToTfrac F s us = .ok (s * 2 ^ 32 + c) := by
  have hd : IsDouble ((us : ℚ) * 4294967296) := isDouble_nat_scale us (by linarith) 32 (by norm_num)
  have hc : ⌈F.rnd ((us : ℚ) * 4294967296 / 1000000)⌉ = (c : ℤ) := by
    have := ceil_rnd F (us * 67108864) 15625 c (by norm_num) (by norm_num) (by linarith) (by linarith) (by linarith)
    rw [← this]
    congr 2
    push_cast
    ring
  unfold secMicroToTfrac
  rw [F.exact hd, hc, toU64_ok (n := c) (Int.floor_intCast _) (by linarith)]
  simp only [Res.bind_ok, Res.pure_eq]
  rw [Nat.mod_eq_of_lt (by linarith)]

theorem secNano_ok (F : Rounding) (s ns c : Nat) (hs : s < 2 ^ 32) (hu : ns < 1000000000)
    (h1 : ns * 2 ^ 32 ≤ c * 1000000000) (h2 : c * 1000000000 < ns * 2 ^ 32 + 1000000000) :
    secNanoToTfrac F s ns = .ok (s * 2 ^ 32 + c) := by
  have hd : IsDouble ((ns : ℚ) * 4294967296) := isDouble_nat_scale ns (by linarith) 32 (by norm_num)
  have hc : ⌈F.rnd ((ns : ℚ) * 4294967296 / 1000000000)⌉ = (c : ℤ) := by
    have := ceil_rnd F (ns * 8388608) 1953125 c (by norm_num) (by norm_num) (by linarith) (by linarith) (by linarith)
    rw [← this]
    congr 2
    push_cast
    ring
  unfold secNanoToTfrac
  rw [F.exact hd, hc, toU64_ok (n := c) (Int.floor_intCast _) (by linarith)]
  simp only [Res.bind_ok, Res.pure_eq]
  rw [Nat.mod_eq_of_lt (by linarith)]

/-- A double minus its whole part is a double. -/
theorem isDouble_fract {x : ℚ} (h : IsDouble x) (h0 : 0 ≤ x) : IsDouble (x - ⌊x⌋) := by
  obtain ⟨m, e, hm, rfl⟩ := h
  have hm0 : 0 ≤ m := by
    have h2 : (0 : ℚ) < 2 ^ e := zpow_pos (by norm_num) _
    have : (0 : ℚ) ≤ m := by by_contra hh; push Not at hh; nlinarith
    exact_mod_cast this
  rw [abs_of_nonneg hm0] at hm
  rcases le_or_gt 0 e with he | he
  · obtain ⟨k, rfl⟩ := Int.eq_ofNat_of_zero_le he
    have : (m : ℚ) * 2 ^ ((k : ℕ) : ℤ) = ((m * 2 ^ k : ℤ) : ℚ) := by push_cast; rw [zpow_natCast]
    rw [this, Int.floor_intCast, sub_self]
    exact ⟨0, 0, by norm_num, by simp⟩
  · obtain ⟨k, hk⟩ : ∃ k : ℕ, e = -k := ⟨(-e).toNat, by omega⟩
    subst hk
    have h2 : (0 : ℚ) < 2 ^ k := by positivity
    have hx : (m : ℚ) * 2 ^ (-(k : ℤ)) = m / 2 ^ k := by rw [zpow_neg, zpow_natCast, div_eq_mul_inv]
    have hf : ⌊(m : ℚ) / 2 ^ k⌋ = m / 2 ^ k := by
      have := Rat.floor_intCast_div_natCast m (2 ^ k)
      push_cast at this
      exact this
    rw [hx, hf]
    have h2z : (0 : ℤ) < 2 ^ k := by positivity
    refine ⟨m % 2 ^ k, -k, ?_, ?_⟩
    · rw [abs_of_nonneg (Int.emod_nonneg _ h2z.ne')]
      have h3 := Int.ediv_nonneg hm0 h2z.le
      have h4 := Int.emod_add_mul_ediv m (2 ^ k)
      nlinarith
    · rw [zpow_neg, zpow_natCast, ← div_eq_mul_inv, eq_div_iff h2.ne', sub_mul, div_mul_cancel₀ _ h2.ne']
      have := Int.emod_add_mul_ediv m (2 ^ k)
      have h3 : ((m % 2 ^ k + 2 ^ k * (m / 2 ^ k) : ℤ) : ℚ) = (m : ℚ) := by rw [this]
      push_cast at h3
      linarith

theorem seconds_ok (F : Rounding) {s : ℚ} (hd : IsDouble s) (h0 : 0 ≤ s) (h1 : s < 4294967295) :
    secondsToTfrac F s = if 2 ^ 32 - 1 / 2 ≤ (s - ⌊s⌋) * 2 ^ 32 then .ub
      else .ok (⌊s⌋.toNat * 2 ^ 32 + ⌊(s - ⌊s⌋) * 2 ^ 32 + 1 / 2⌋.toNat) := by
  have hf0 : 0 ≤ ⌊s⌋ := Int.floor_nonneg.2 h0
  have hfr0 := Int.fract_nonneg s
  have hfr1 := Int.fract_lt_one s
  unfold Int.fract at hfr0 hfr1
  obtain ⟨n, hn⟩ := Int.eq_ofNat_of_zero_le hf0
  have hnl : n < 2 ^ 32 := by
    have : (⌊s⌋ : ℚ) ≤ s := Int.floor_le s
    rw [hn] at this
    have h4 : ((n : ℤ) : ℚ) < 4294967295 := by linarith
    have h5 : n < 4294967295 := by exact_mod_cast h4
    omega
  have hdf := isDouble_fract hd h0
  unfold secondsToTfrac
  rw [hn] at hdf hfr0 hfr1 ⊢
  rw [show toU32 (((n : ℤ)) : ℚ) = .ok n from toU32_ok (Int.floor_intCast _) hnl]
  simp only [h1, decide_true, Res.require_true, Res.bind_ok, Res.pure_eq, Int.cast_natCast] at hdf hfr0 hfr1 ⊢
  rw [F.exact hdf]
  have hd2 : IsDouble ((s - n) * 4294967296) := by
    have := isDouble_scale hdf 32
    rwa [show (2 : ℚ) ^ (32 : ℤ) = 4294967296 by norm_num] at this
  rw [F.exact hd2, show (2 : ℚ) ^ 32 = 4294967296 by norm_num]
  generalize hx : (s - n) * 4294967296 = x
  have hx0 : 0 ≤ x := by rw [← hx]; nlinarith
  have hx1 : x < 4294967296 := by rw [← hx]; nlinarith
  unfold cround
  by_cases hb : 4294967296 - 1 / 2 ≤ x
  · rw [if_pos hb]
    have : ⌊x + 1 / 2⌋ = 4294967296 := by
      rw [Int.floor_eq_iff]; constructor <;> push_cast <;> linarith
    rw [this]
    unfold toU32
    rw [if_pos (by right; norm_num)]
    rfl
  · rw [if_neg hb]
    push Not at hb
    have hk0 : 0 ≤ ⌊x + 1 / 2⌋ := Int.floor_nonneg.2 (by linarith)
    obtain ⟨k, hk⟩ := Int.eq_ofNat_of_zero_le hk0
    have hk1 : ⌊x + 1 / 2⌋ < 4294967296 := by
      rw [Int.floor_lt]; push_cast; linarith
    rw [hk] at hk1 ⊢
    rw [toU32_ok (n := k) (Int.floor_intCast _) (by omega)]
    simp only [Res.bind_ok]
    rw [Nat.mod_eq_of_lt (by omega)]
    simp

end Verif.Clock
