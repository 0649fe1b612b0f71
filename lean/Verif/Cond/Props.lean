import Verif.Cond.Model
import Verif.Clock.Lemmas

/-! # Properties of the deadlines of condition variables (C56) -/

namespace Verif.Cond

open Verif.Flt Verif.Clock

/-- A time in nanoseconds. -/
def Timespec.ns (t : Timespec) : Int := t.sec * 1000000000 + t.nsec

/-- A time as the system gives it. -/
def Timespec.Normal (t : Timespec) : Prop := 0 ≤ t.nsec ∧ t.nsec < 1000000000

theorem deadline_ok (F : Rounding) {s : ℚ} (hd : IsDouble s) (h0 : 0 ≤ s) (now : Timespec) (hn : now.Normal)
    (hs : 0 ≤ now.sec) (hfit : now.sec + ⌊s⌋ + 1 < 2 ^ 63) :
    ∃ t, deadline F now s = .ok t ∧ t.Normal ∧ t.ns = now.ns + ⌊s⌋ * 1000000000 + ⌊F.rnd (1000000000 * (s - ⌊s⌋)) + 1 / 2⌋ := by
  obtain ⟨hn0, hn1⟩ := hn
  have hf0 : 0 ≤ ⌊s⌋ := Int.floor_nonneg.2 h0
  have hfr0 : 0 ≤ s - ⌊s⌋ := sub_nonneg.2 (Int.floor_le s)
  have hfr1 : s - ⌊s⌋ < 1 := by have := Int.lt_floor_add_one s; linarith
  have hex : F.rnd (s - ⌊s⌋) = s - ⌊s⌋ := F.exact (isDouble_fract hd h0)
  have hz : F.rnd 0 = 0 := F.exact ⟨0, 0, by norm_num, by simp⟩
  have hr0 : 0 ≤ F.rnd (1000000000 * (s - ⌊s⌋)) := by
    rw [← hz]; exact F.mono (by linarith)
  have hr1 : F.rnd (1000000000 * (s - ⌊s⌋)) ≤ 1000000000 := by
    refine F.le_of_double ?_ (by linarith)
    have := isDouble_nat 1000000000 (by norm_num)
    exact_mod_cast this
  obtain ⟨z, hz⟩ : ∃ z, z = ⌊F.rnd (1000000000 * (s - ⌊s⌋)) + 1 / 2⌋ := ⟨_, rfl⟩
  have hz0 : 0 ≤ z := by rw [hz]; exact Int.floor_nonneg.2 (by linarith)
  have hz1 : z ≤ 1000000000 := by
    rw [hz]
    have h := Int.floor_le_floor (show F.rnd (1000000000 * (s - ⌊s⌋)) + 1 / 2 ≤ ((1000000000 : ℤ) : ℚ) + 1 / 2 by
      push_cast; linarith)
    have e : ⌊((1000000000 : ℤ) : ℚ) + 1 / 2⌋ = 1000000000 := by
      rw [Int.floor_intCast_add]; norm_num
    rw [e] at h
    exact h
  unfold deadline
  rw [hex]
  simp only [cround, ← hz]
  simp only [h0, decide_true, Res.require_true, Res.bind_ok]
  rw [show toTime ⌊s⌋ = .ok ⌊s⌋ from if_pos (by omega), Res.bind_ok,
    show add64 now.sec ⌊s⌋ = .ok (now.sec + ⌊s⌋) from if_pos (by omega), Res.bind_ok,
    show toTime z = .ok z from if_pos (by omega), Res.bind_ok,
    show add64 now.nsec z = .ok (now.nsec + z) from if_pos (by omega), Res.bind_ok]
  unfold normalise
  split
  · next hge =>
    rw [show add64 (now.sec + ⌊s⌋) 1 = .ok (now.sec + ⌊s⌋ + 1) from if_pos (by omega), Res.bind_ok,
      show decide (now.nsec + z - 1000000000 < 1000000000) = true from decide_eq_true (by omega), Res.require_true, Res.bind_ok]
    exact ⟨_, rfl, ⟨by simp only; omega, by simp only; omega⟩, by simp only [Timespec.ns]; omega⟩
  · exact ⟨_, rfl, ⟨by simp only; omega, by simp only; omega⟩, by simp only [Timespec.ns]; omega⟩

/-- **C56, partial.** For every current time and every non-negative duration that fits `time_t`, `timedWait` passes a
normalised deadline which differs from the current time plus the duration by at most half a nanosecond and `2^-23`
nanoseconds. Missing for the full statement: the extra `2^-23`, which does occur (`deadline_not_nearest`), and durations
too long for `time_t`, which are undefined (`deadline_undefined`). -/
theorem deadline_partial (F : Rounding) (seconds : ℚ) (hd : IsDouble seconds) (h0 : 0 ≤ seconds) (now : Timespec)
    (hn : now.Normal) (hs : 0 ≤ now.sec) (hfit : now.sec + ⌊seconds⌋ + 1 < 2 ^ 63) :
    ∃ t, deadline F now seconds = .ok t ∧ t.Normal ∧
      |(t.ns : ℚ) - (now.ns + seconds * 1000000000)| ≤ 1 / 2 + 1 / 2 ^ 23 := by
  obtain ⟨t, h1, h2, h3⟩ := deadline_ok F hd h0 now hn hs hfit
  refine ⟨t, h1, h2, ?_⟩
  have hfr0 : 0 ≤ seconds - ⌊seconds⌋ := sub_nonneg.2 (Int.floor_le seconds)
  have hfr1 : seconds - ⌊seconds⌋ < 1 := by have := Int.lt_floor_add_one seconds; linarith
  have herr := F.err (1000000000 * (seconds - ⌊seconds⌋))
  rw [abs_of_nonneg (a := 1000000000 * (seconds - ⌊seconds⌋)) (by linarith)] at herr
  have herr2 : 1000000000 * (seconds - ⌊seconds⌋) / 2 ^ 53 ≤ 1 / 2 ^ 23 := by
    have e1 : (2 : ℚ) ^ 53 = 9007199254740992 := by norm_num
    have e2 : (2 : ℚ) ^ 23 = 8388608 := by norm_num
    rw [e1, e2, div_le_div_iff₀ (by norm_num) (by norm_num)]
    linarith
  have e : (t.ns : ℚ) = now.ns + ⌊seconds⌋ * 1000000000 + ⌊F.rnd (1000000000 * (seconds - ⌊seconds⌋)) + 1 / 2⌋ := by
    rw [h3]; push_cast; ring
  rw [e]
  have f1 := Int.floor_le (F.rnd (1000000000 * (seconds - ⌊seconds⌋)) + 1 / 2)
  have f2 := Int.lt_floor_add_one (F.rnd (1000000000 * (seconds - ⌊seconds⌋)) + 1 / 2)
  have h4 := abs_le.1 (le_trans herr herr2)
  rw [abs_le]
  constructor <;> linarith [h4.1, h4.2]

/-- A duration and a time that meet the hypotheses, with a carry. -/
example : IsDouble (7 / 4) ∧ Timespec.Normal ⟨1700000000, 300000000⟩ ∧
    deadline ieee ⟨1700000000, 300000000⟩ (7 / 4) = .ok ⟨1700000002, 50000000⟩ := by
  have h1 : IsDouble (7 / 4) := ⟨7, -2, by norm_num, by norm_num⟩
  refine ⟨h1, ⟨by norm_num, by norm_num⟩, ?_⟩
  have e1 : ⌊(7 / 4 : ℚ)⌋ = 1 := by norm_num
  have e2 : ieee.rnd (7 / 4 - 1) = 3 / 4 := by
    rw [ieee.exact ⟨3, -2, by norm_num, by norm_num⟩]; norm_num
  have e3 : ieee.rnd (1000000000 * (3 / 4)) = 750000000 := by
    rw [ieee.exact ⟨750000000, 0, by norm_num, by norm_num⟩]; norm_num
  unfold deadline
  rw [e1]
  have e4 : ((1 : ℤ) : ℚ) = 1 := by norm_num
  rw [e4, e2, e3]
  have e5 : cround 750000000 = 750000000 := by
    unfold cround
    rw [Int.floor_eq_iff]; norm_num
  rw [e5]
  norm_num [toTime, add64, normalise, Res.require]

/-- A double between `2^29` and `2^30` is a multiple of `2^-24`. -/
theorem double_grid {x : ℚ} (h : IsDouble x) (h1 : 2 ^ 29 < x) : ∃ z : ℤ, x = z / 2 ^ 24 := by
  obtain ⟨m, e, hm, rfl⟩ := h
  have hm' : (m : ℚ) ≤ 2 ^ 53 := by exact_mod_cast (abs_le.1 hm).2
  rcases le_or_gt (-24) e with he | he
  · obtain ⟨k, hk⟩ : ∃ k : ℕ, e = k - 24 := ⟨(e + 24).toNat, by omega⟩
    refine ⟨m * 2 ^ k, ?_⟩
    rw [hk, zpow_sub₀ (by norm_num), zpow_natCast]
    push_cast
    rw [mul_div_assoc]
    norm_num
  · exfalso
    have h2 : (2 : ℚ) ^ e ≤ 2 ^ (-24 : ℤ) := zpow_le_zpow_right₀ (by norm_num) (by omega)
    have h3 : (m : ℚ) * 2 ^ e ≤ 2 ^ 53 * 2 ^ (-24 : ℤ) :=
      mul_le_mul hm' h2 (le_of_lt (zpow_pos (by norm_num) _)) (by norm_num)
    have h4 : (2 : ℚ) ^ 53 * 2 ^ (-24 : ℤ) = 2 ^ 29 := by norm_num
    linarith

/-- **C56 is missed by a hair.** With this duration, about 0.54 seconds, and whatever nearest rounding the machine uses,
the nearest nanosecond is 538298498 but the deadline is 538298499 nanoseconds ahead. -/
theorem deadline_not_nearest (F : Rounding) : IsDouble (4848561834517395 / 2 ^ 53) ∧
    deadline F ⟨0, 0⟩ (4848561834517395 / 2 ^ 53) = .ok ⟨0, 538298499⟩ ∧
    |(538298498 : ℚ) - 4848561834517395 / 2 ^ 53 * 1000000000| < |(538298499 : ℚ) - 4848561834517395 / 2 ^ 53 * 1000000000| := by
  have hd : IsDouble (4848561834517395 / 2 ^ 53) := ⟨4848561834517395, -53, by norm_num, by norm_num⟩
  have hfl : ⌊(4848561834517395 / 2 ^ 53 : ℚ)⌋ = 0 := by rw [Int.floor_eq_iff]; norm_num
  refine ⟨hd, ?_, ?_⟩
  · obtain ⟨r, hr⟩ : ∃ r, r = F.rnd (1000000000 * (4848561834517395 / 2 ^ 53)) := ⟨_, rfl⟩
    have hhalf : IsDouble (1076596997 / 2) := ⟨1076596997, -1, by norm_num, by norm_num⟩
    have hnear := F.nearest (1000000000 * (4848561834517395 / 2 ^ 53)) _ hhalf
    rw [← hr] at hnear
    have hrd : IsDouble r := hr ▸ F.isDouble _
    have e1 : |(1076596997 / 2 : ℚ) - 1000000000 * (4848561834517395 / 2 ^ 53)| = 1 / 2 ^ 44 := by
      rw [abs_of_pos (by norm_num)]; norm_num
    rw [e1, abs_le] at hnear
    have hr1 : (2 : ℚ) ^ 29 < r := by
      have := hnear.1
      norm_num at this ⊢
      linarith
    obtain ⟨z, hz⟩ := double_grid hrd hr1
    have hz2 : z = 1076596997 * 2 ^ 23 := by
      rw [hz] at hnear
      obtain ⟨h1, h2⟩ := hnear
      rw [div_sub' (by norm_num), le_div_iff₀ (by norm_num)] at h1
      rw [div_sub' (by norm_num), div_le_iff₀ (by norm_num)] at h2
      have a1 : (1076596997 * 2 ^ 23 - 1 : ℚ) < z := by norm_num at h1 ⊢; linarith
      have a2 : (z : ℚ) < 1076596997 * 2 ^ 23 + 1 := by norm_num at h2 ⊢; linarith
      have b1 : (1076596997 * 2 ^ 23 - 1 : ℤ) < z := by exact_mod_cast a1
      have b2 : z < (1076596997 * 2 ^ 23 + 1 : ℤ) := by exact_mod_cast a2
      omega
    have hr2 : r = 1076596997 / 2 := by rw [hz, hz2]; norm_num
    obtain ⟨t, h1, ⟨h2, h3⟩, h4⟩ := deadline_ok F hd (by norm_num) ⟨0, 0⟩ ⟨by norm_num, by norm_num⟩ (by norm_num)
      (by rw [hfl]; norm_num)
    rw [hfl] at h4
    rw [show (4848561834517395 / 2 ^ 53 : ℚ) - ((0 : ℤ) : ℚ) = 4848561834517395 / 2 ^ 53 by norm_num, ← hr, hr2] at h4
    have e2 : ⌊(1076596997 / 2 : ℚ) + 1 / 2⌋ = 538298499 := by rw [Int.floor_eq_iff]; norm_num
    rw [e2] at h4
    rw [h1]
    simp only [Timespec.ns] at h4
    cases t with
    | mk sec nsec =>
      simp only at h2 h3 h4
      congr 2 <;> omega
  · rw [abs_of_neg (by norm_num), abs_of_pos (by norm_num)]
    norm_num

/-- **C56 fails** for durations that do not fit: waiting for three hundred billion years is undefined. -/
theorem deadline_undefined (F : Rounding) (now : Timespec) : deadline F now (2 ^ 63) = .ub ∧ IsDouble (2 ^ 63) := by
  refine ⟨?_, ⟨1, 63, by norm_num, by norm_num⟩⟩
  have hfl : ⌊(2 ^ 63 : ℚ)⌋ = 2 ^ 63 := by rw [Int.floor_eq_iff]; norm_num
  unfold deadline
  have h0 : (0 : ℚ) ≤ 2 ^ 63 := by norm_num
  simp only [h0, decide_true, Res.require_true, Res.bind_ok]
  rw [hfl, show toTime (2 ^ 63) = .ub from if_neg (by norm_num), Res.bind_ub]

/-- **C56.** Negative durations are refused. -/
theorem deadline_negative (F : Rounding) (now : Timespec) (s : ℚ) (h : s < 0) : deadline F now s = .abort := by
  unfold deadline
  rw [show decide (0 ≤ s) = false from decide_eq_false (not_le.2 h), Res.require_false, Res.bind_abort]

end Verif.Cond
