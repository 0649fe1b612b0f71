import Verif.Rng.Const2048A
import Verif.Rng.Const2048B
import Mathlib.Tactic.NormNum.Prime

/-! # C239: the constant for 2048 words -/

namespace Verif.Rng.Words2048

open Verif.Rng

theorem power_eq : powMod (1047570 * base32 ^ 2048 + 1) base32 (1047570 * base32 ^ 2048 / (1047570 * 17 * 257 * 65537)) 65536 1 = part16 := by
  rw [show 65536 = 4096 + 61440 from rfl, powMod_split, part1_eq]
  rw [show 61440 = 4096 + 57344 from rfl, powMod_split, part2_eq]
  rw [show 57344 = 4096 + 53248 from rfl, powMod_split, part3_eq]
  rw [show 53248 = 4096 + 49152 from rfl, powMod_split, part4_eq]
  rw [show 49152 = 4096 + 45056 from rfl, powMod_split, part5_eq]
  rw [show 45056 = 4096 + 40960 from rfl, powMod_split, part6_eq]
  rw [show 40960 = 4096 + 36864 from rfl, powMod_split, part7_eq]
  rw [show 36864 = 4096 + 32768 from rfl, powMod_split, part8_eq]
  rw [show 32768 = 4096 + 28672 from rfl, powMod_split, part9_eq]
  rw [show 28672 = 4096 + 24576 from rfl, powMod_split, part10_eq]
  rw [show 24576 = 4096 + 20480 from rfl, powMod_split, part11_eq]
  rw [show 20480 = 4096 + 16384 from rfl, powMod_split, part12_eq]
  rw [show 16384 = 4096 + 12288 from rfl, powMod_split, part13_eq]
  rw [show 12288 = 4096 + 8192 from rfl, powMod_split, part14_eq]
  rw [show 8192 = 4096 + 4096 from rfl, powMod_split, part15_eq]
  exact part16_eq

/-- C239: the constant for 2048 words is as the comment demands. -/
theorem full : FullPeriod 2048 1047570 := by
  refine full_from 2048 1047570 65536 80 (1047570 * 17 * 257 * 65537) [2, 3, 5, 34919, 17, 257, 65537] (by decide) (fun q hq hd => ?_) part16 power_eq (by decide +kernel)
  rcases (hq.dvd_mul).1 hd with h | h
  · rw [show 1047570 = 2 * 3 * 5 * 34919 by norm_num, hq.dvd_mul, hq.dvd_mul, hq.dvd_mul, Nat.prime_dvd_prime_iff_eq hq (by norm_num), Nat.prime_dvd_prime_iff_eq hq (by norm_num), Nat.prime_dvd_prime_iff_eq hq (by norm_num), Nat.prime_dvd_prime_iff_eq hq (by norm_num)] at h
    simp only [List.mem_cons]
    tauto
  · have := base_primes q hq (hq.dvd_of_dvd_pow h)
    simp only [List.mem_cons]
    tauto

end Verif.Rng.Words2048
