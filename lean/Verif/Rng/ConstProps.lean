import Verif.Rng.Consts
import Mathlib.NumberTheory.LucasPrimality
import Mathlib.FieldTheory.Finite.Basic
import Mathlib.GroupTheory.OrderOfElement
import Mathlib.Tactic.NormNum.Prime

/-! # C239: the constants of the Marsaglia generators -/

namespace Verif.Rng

/-! ## Specification -/

/-- The base, `2^32 - 1`. -/
def base32 : Nat := 4294967295

/-- The condition of the comment (lines 86-88): `a b^r + 1` is a prime of which `b` is a primitive root; then the documented recurrence has the period `a b^r`. -/
def FullPeriod (r a : Nat) : Prop := (a * base32 ^ r + 1).Prime ∧ orderOf (base32 : ZMod (a * base32 ^ r + 1)) = a * base32 ^ r

/-! ## Powers modulo a number -/

/-- `acc ^ (2 ^ k) * g ^ (e % 2 ^ k)`, modulo `p`. The case distinction makes the kernel compute the number before it is used twice. -/
def powMod (p g e : Nat) : Nat → Nat → Nat
  | 0, acc => acc
  | k + 1, acc =>
    match acc with
    | 0 => 0
    | a + 1 => powMod p g e k (bif e.testBit k then Nat.mod (Nat.mul (Nat.mod (Nat.mul (a + 1) (a + 1)) p) g) p else Nat.mod (Nat.mul (a + 1) (a + 1)) p)

theorem powMod_mod (p g e : Nat) (hp : 0 < p) : ∀ (k acc : Nat), powMod p g e k acc % p = acc ^ (2 ^ k) * g ^ (e % 2 ^ k) % p := by
  intro k
  induction k with
  | zero => intro acc; simp [powMod, Nat.mod_one]
  | succ k ih =>
    intro acc
    cases acc with
    | zero => simp [powMod]
    | succ a =>
      rw [powMod]
      have he : e % 2 ^ (k + 1) = e % 2 ^ k + 2 ^ k * (e.testBit k).toNat := by
        rw [Nat.mod_pow_succ, Nat.toNat_testBit]
      rw [ih, he, pow_add g, pow_mul g]
      have e2 : (a + 1) ^ 2 ^ (k + 1) = ((a + 1) * (a + 1)) ^ 2 ^ k := by rw [← sq, ← pow_mul, ← pow_succ']
      rw [e2]
      cases e.testBit k
      · show ((a + 1) * (a + 1) % p) ^ 2 ^ k * _ % p = _
        simp only [Bool.toNat_false, pow_zero, mul_one]
        rw [Nat.mul_mod, ← Nat.pow_mod, ← Nat.mul_mod]
      · show ((a + 1) * (a + 1) % p * g % p) ^ 2 ^ k * _ % p = _
        simp only [Bool.toNat_true, pow_one]
        have h1 : ((a + 1) * (a + 1) % p * g % p) ^ 2 ^ k % p = ((a + 1) * (a + 1) * g) ^ 2 ^ k % p := by
          rw [← Nat.pow_mod, Nat.pow_mod ((a + 1) * (a + 1) % p * g), Nat.mod_mul_mod, ← Nat.pow_mod]
        rw [Nat.mul_mod, h1, ← Nat.mul_mod, mul_pow]
        congr 1
        rw [mul_assoc, mul_comm (g ^ 2 ^ k)]

/-- A power in the integers modulo `p`. -/
theorem powMod_cast (p g e k : Nat) (hp : 0 < p) (hk : e < 2 ^ k) : (g : ZMod p) ^ e = (powMod p g e k 1 : Nat) := by
  have h := powMod_mod p g e hp k 1
  rw [one_pow, one_mul, Nat.mod_eq_of_lt hk] at h
  rw [← Nat.cast_pow, ZMod.natCast_eq_natCast_iff']
  exact h.symm

theorem pow_one_of (p g e k : Nat) (hp : 0 < p) (hk : e < 2 ^ k) (h : powMod p g e k 1 = 1) : (g : ZMod p) ^ e = 1 := by
  rw [powMod_cast p g e k hp hk, h, Nat.cast_one]

theorem pow_ne_one_of (p g e k : Nat) (hp : 0 < p) (hk : e < 2 ^ k) (h : powMod p g e k 1 % p ≠ 1 % p) : (g : ZMod p) ^ e ≠ 1 := by
  rw [powMod_cast p g e k hp hk]
  intro h1
  apply h
  exact (ZMod.natCast_eq_natCast_iff' _ 1 p).1 (by rw [h1, Nat.cast_one])

theorem base_primes (q : Nat) (hq : q.Prime) (h : q ∣ base32) : q = 3 ∨ q = 5 ∨ q = 17 ∨ q = 257 ∨ q = 65537 := by
  rw [show base32 = 3 * 5 * 17 * 257 * 65537 by norm_num [base32], hq.dvd_mul, hq.dvd_mul, hq.dvd_mul, hq.dvd_mul,
    Nat.prime_dvd_prime_iff_eq hq (by norm_num), Nat.prime_dvd_prime_iff_eq hq (by norm_num), Nat.prime_dvd_prime_iff_eq hq (by norm_num), Nat.prime_dvd_prime_iff_eq hq (by norm_num),
    Nat.prime_dvd_prime_iff_eq hq (by norm_num)] at h
  tauto

/-- The checks that show the condition. -/
def checkFull (r a k : Nat) (qs : List Nat) : Bool :=
  Nat.beq (powMod (a * base32 ^ r + 1) base32 (a * base32 ^ r) k 1) 1 && Nat.blt (a * base32 ^ r) (2 ^ k) &&
    qs.all fun q => !Nat.beq (powMod (a * base32 ^ r + 1) base32 (a * base32 ^ r / q) k 1 % (a * base32 ^ r + 1)) 1

theorem full_of (r a k : Nat) (qs : List Nat) (ha : 0 < a) (hqs : ∀ q, q.Prime → q ∣ a * base32 ^ r → q ∈ qs) (h : checkFull r a k qs = true) : FullPeriod r a := by
  simp only [checkFull, Bool.and_eq_true] at h
  obtain ⟨⟨h1, h2⟩, h3⟩ := h
  have hlt : a * base32 ^ r < 2 ^ k := Nat.le_of_ble_eq_true h2
  have hpos : 0 < a * base32 ^ r := Nat.mul_pos ha (Nat.pow_pos (by decide))
  have e1 : (base32 : ZMod (a * base32 ^ r + 1)) ^ (a * base32 ^ r) = 1 := pow_one_of _ _ _ k (Nat.succ_pos _) hlt (Nat.eq_of_beq_eq_true h1)
  have e2 : ∀ q, q.Prime → q ∣ a * base32 ^ r → (base32 : ZMod (a * base32 ^ r + 1)) ^ (a * base32 ^ r / q) ≠ 1 := by
    intro q hq hd
    refine pow_ne_one_of _ _ _ k (Nat.succ_pos _) (Nat.lt_of_le_of_lt (Nat.div_le_self _ _) hlt) ?_
    rw [Nat.mod_eq_of_lt (a := 1) (by omega)]
    intro he
    have := List.all_eq_true.1 h3 q (hqs q hq hd)
    rw [he] at this
    cases this
  refine ⟨lucas_primality _ (base32 : ZMod (a * base32 ^ r + 1)) (by simpa using e1) (by simpa using e2), ?_⟩
  exact orderOf_eq_of_pow_and_pow_div_prime hpos e1 e2

theorem short_of (r a k q : Nat)
    (h : (Nat.beq (powMod (a * base32 ^ r + 1) base32 (a * base32 ^ r / q) k 1) 1 && Nat.blt (a * base32 ^ r) (2 ^ k)) = true) : orderOf (base32 : ZMod (a * base32 ^ r + 1)) ∣ a * base32 ^ r / q := by
  simp only [Bool.and_eq_true] at h
  obtain ⟨h1, h2⟩ := h
  have hlt : a * base32 ^ r < 2 ^ k := Nat.le_of_ble_eq_true h2
  exact orderOf_dvd_of_pow_eq_one (pow_one_of _ base32 (a * base32 ^ r / q) k (Nat.succ_pos _) (Nat.lt_of_le_of_lt (Nat.div_le_self _ _) hlt) (Nat.eq_of_beq_eq_true h1))

theorem not_full_of (r a q : Nat) (ha : 0 < a) (hq : 1 < q) (hle : q ≤ a * base32 ^ r) (hd : orderOf (base32 : ZMod (a * base32 ^ r + 1)) ∣ a * base32 ^ r / q) : ¬ FullPeriod r a := by
  have hpos : 0 < a * base32 ^ r := Nat.mul_pos ha (Nat.pow_pos (by decide))
  intro hf
  rw [hf.2] at hd
  have := Nat.le_of_dvd (Nat.div_pos hle (by omega)) hd
  exact absurd (Nat.div_lt_self hpos hq) (by omega)

theorem not_prime_of (p k : Nat) (hp : 2 < p) (h : (Nat.blt p (2 ^ k) && !Nat.beq (powMod p 2 (p - 1) k 1 % p) 1) = true) : ¬ p.Prime := by
  simp only [Bool.and_eq_true] at h
  obtain ⟨h1, h2⟩ := h
  have hlt : p < 2 ^ k := Nat.le_of_ble_eq_true h1
  intro hprime
  have : Fact p.Prime := ⟨hprime⟩
  have e1 := pow_ne_one_of p 2 (p - 1) k (by omega) (by omega) (by
    rw [Nat.mod_eq_of_lt (a := 1) (by omega)]
    intro he
    rw [he] at h2
    cases h2)
  refine e1 (ZMod.pow_card_sub_one_eq_one ?_)
  intro h0
  have := (ZMod.natCast_eq_zero_iff 2 p).1 h0
  exact absurd (Nat.le_of_dvd (by omega) this) (by omega)

/-! ## The constants -/

set_option maxRecDepth 100000 in
/-- C239: the constant for 16 words is as the comment demands. -/
theorem full16 : FullPeriod 16 487198574 := by
  refine full_of 16 487198574 541 [2, 8117, 30011, 3, 5, 17, 257, 65537] (by decide) (fun q hq hd => ?_) (by decide +kernel)
  rcases (hq.dvd_mul).1 hd with h | h
  · rw [show 487198574 = 2 * 8117 * 30011 by norm_num, hq.dvd_mul, hq.dvd_mul, Nat.prime_dvd_prime_iff_eq hq (by norm_num), Nat.prime_dvd_prime_iff_eq hq (by norm_num), Nat.prime_dvd_prime_iff_eq hq (by norm_num)] at h
    simp only [List.mem_cons]
    tauto
  · have := base_primes q hq (hq.dvd_of_dvd_pow h)
    simp only [List.mem_cons]
    tauto

set_option maxRecDepth 100000 in
/-- C239: and the one for 128 words. -/
theorem full128 : FullPeriod 128 8007626 := by
  refine full_of 128 8007626 4119 [2, 11, 19, 19157, 3, 5, 17, 257, 65537] (by decide) (fun q hq hd => ?_) (by decide +kernel)
  rcases (hq.dvd_mul).1 hd with h | h
  · rw [show 8007626 = 2 * 11 * 19 * 19157 by norm_num, hq.dvd_mul, hq.dvd_mul, hq.dvd_mul, Nat.prime_dvd_prime_iff_eq hq (by norm_num), Nat.prime_dvd_prime_iff_eq hq (by norm_num), Nat.prime_dvd_prime_iff_eq hq (by norm_num),
      Nat.prime_dvd_prime_iff_eq hq (by norm_num)] at h
    simp only [List.mem_cons]
    tauto
  · have := base_primes q hq (hq.dvd_of_dvd_pow h)
    simp only [List.mem_cons]
    tauto

set_option maxRecDepth 100000 in
theorem short8 : orderOf (base32 : ZMod (716514398 * base32 ^ 8 + 1)) ∣ 716514398 * base32 ^ 8 / 3 := short_of 8 716514398 286 3 (by decide +kernel)

theorem full8_false : ¬ FullPeriod 8 716514398 := not_full_of 8 716514398 3 (by decide) (by decide) (Nat.le_of_ble_eq_true (by decide +kernel)) short8

set_option maxRecDepth 100000 in
theorem short32 : orderOf (base32 : ZMod (547416522 * base32 ^ 32 + 1)) ∣ 547416522 * base32 ^ 32 / 17 := short_of 32 547416522 1054 17 (by decide +kernel)

theorem full32_false : ¬ FullPeriod 32 547416522 := not_full_of 32 547416522 17 (by decide) (by decide) (Nat.le_of_ble_eq_true (by decide +kernel)) short32

set_option maxRecDepth 100000 in
theorem short64 : orderOf (base32 : ZMod (647535442 * base32 ^ 64 + 1)) ∣ 647535442 * base32 ^ 64 / 3 := short_of 64 647535442 2078 3 (by decide +kernel)

theorem full64_false : ¬ FullPeriod 64 647535442 := not_full_of 64 647535442 3 (by decide) (by decide) (Nat.le_of_ble_eq_true (by decide +kernel)) short64

set_option maxRecDepth 100000 in
theorem full256_false : ¬ FullPeriod 256 8001634 := fun h => not_prime_of (8001634 * base32 ^ 256 + 1) 8216 (by decide +kernel) (by decide +kernel) h.1

theorem full512_false : ¬ FullPeriod 512 123554632 := by
  intro h
  have hd : 59 ∣ 123554632 * base32 ^ 512 + 1 := Nat.dvd_of_mod_eq_zero (by decide +kernel)
  rcases (Nat.dvd_prime h.1).1 hd with h1 | h1
  · cases h1
  · exact absurd h1 (by decide +kernel)

end Verif.Rng
