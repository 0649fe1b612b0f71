import Verif.Rng.PeriodLemmas
import Verif.Rng.MicroProps
import Mathlib.Dynamics.PeriodicPts.Lemmas
import Mathlib.Data.Nat.Prime.Basic
import Mathlib.Tactic.NormNum.Prime

/-! # C238: the periods of `MarsagliaRNGMicro` -/

namespace Verif.Rng

/-! ## Specification -/

/-- The results of `s` repeat after `p` of them and not earlier: what comes from the `i`-th on and what comes from the `j`-th on are the same exactly if `i` and `j` differ by a multiple of `p`. -/
def Micro.HasPeriod (s : Micro) (p : Nat) : Prop := ∀ i j, (∀ n, s.out (i + n) = s.out (j + n)) ↔ i % p = j % p

namespace Period

/-! ## The step as a linear function -/

/-- What matters of a state. -/
def code (s : Micro) : BitVec 64 := s.x ++ s.w

/-- What a call makes of it. -/
def step (v : BitVec 64) : BitVec 64 :=
  let x := v.extractLsb' 32 32
  let w := v.extractLsb' 0 32
  w ++ (((x ^^^ (x <<< 15)) ^^^ ((x ^^^ (x <<< 15)) >>> 4)) ^^^ (w ^^^ (w >>> 21)))

theorem code_x (x w : W) : (x ++ w : BitVec 64).extractLsb' 32 32 = x := by
  apply BitVec.eq_of_getLsbD_eq
  intro i hi
  rw [BitVec.getLsbD_extractLsb', BitVec.getLsbD_append]
  simp [hi]

theorem code_w (x w : W) : (x ++ w : BitVec 64).extractLsb' 0 32 = w := by
  apply BitVec.eq_of_getLsbD_eq
  intro i hi
  rw [BitVec.getLsbD_extractLsb', BitVec.getLsbD_append]
  simp [hi]

theorem step_code (s : Micro) : code s.next.1 = step (code s) := by
  unfold step code
  simp only [code_x, code_w]
  rfl

theorem step_after (s : Micro) (n : Nat) : code (Micro.after n s) = times step n (code s) := by
  induction n with
  | zero => rfl
  | succ n ih => rw [micro_after_succ, step_code, ih]; rfl

theorem code_inj {s t : Micro} (h : code s = code t) : s.x = t.x ∧ s.w = t.w := by
  have hx := congrArg (fun v => v.extractLsb' 32 32) h
  have hw := congrArg (fun v => v.extractLsb' 0 32) h
  simp only [code, code_x, code_w] at hx hw
  exact ⟨hx, hw⟩

theorem shl_xor (x y : W) (k : Nat) : (x ^^^ y) ^^^ ((x ^^^ y) <<< k) = (x ^^^ (x <<< k)) ^^^ (y ^^^ (y <<< k)) := by
  rw [BitVec.shiftLeft_xor_distrib]
  ac_rfl

theorem shr_xor (x y : W) (k : Nat) : (x ^^^ y) ^^^ ((x ^^^ y) >>> k) = (x ^^^ (x >>> k)) ^^^ (y ^^^ (y >>> k)) := by
  rw [BitVec.ushiftRight_xor_distrib]
  ac_rfl

theorem append_xor (a b c d : W) : ((a ^^^ b) ++ (c ^^^ d) : BitVec 64) = (a ++ c) ^^^ (b ++ d) := by
  apply BitVec.eq_of_getLsbD_eq
  intro i hi
  rw [BitVec.getLsbD_xor, BitVec.getLsbD_append, BitVec.getLsbD_append, BitVec.getLsbD_append]
  by_cases h : i < 32
  · simp only [h, decide_true, cond_true, BitVec.getLsbD_xor, if_true]
  · simp only [h, decide_false, cond_false, BitVec.getLsbD_xor, if_false]

theorem xor_swap (a b c d : W) : (a ^^^ b) ^^^ (c ^^^ d) = (a ^^^ c) ^^^ (b ^^^ d) := by ac_rfl

theorem extract_xor (u v : BitVec 64) (k : Nat) : (u ^^^ v).extractLsb' k 32 = u.extractLsb' k 32 ^^^ v.extractLsb' k 32 := by
  apply BitVec.eq_of_getLsbD_eq
  intro i hi
  rw [BitVec.getLsbD_xor, BitVec.getLsbD_extractLsb', BitVec.getLsbD_extractLsb', BitVec.getLsbD_extractLsb', BitVec.getLsbD_xor]
  simp [hi]

theorem step_xor (u v : BitVec 64) : step (u ^^^ v) = step u ^^^ step v := by
  unfold step
  simp only [extract_xor u v 32, extract_xor u v 0]
  generalize BitVec.extractLsb' 32 32 u = a
  generalize BitVec.extractLsb' 0 32 u = b
  generalize BitVec.extractLsb' 32 32 v = c
  generalize BitVec.extractLsb' 0 32 v = d
  rw [shl_xor a c 15, shr_xor _ _ 4, shr_xor b d 21, xor_swap, append_xor]

/-! ## What the table says -/

theorem char_lt : charPoly < 2 ^ 65 := by decide

set_option maxRecDepth 100000 in
theorem char_zero (v : BitVec 64) : act step 130 charPoly v = 0#64 :=
  char_ok step step_xor charPoly char_lt states.head! states.tail basis (by decide) (by decide) (by decide +kernel) v

set_option maxRecDepth 100000 in
theorem pow_A : powA < 2 ^ 64 ∧ ∀ v, act step 130 powA v = times step 4194303 v :=
  power_ok step step_xor charPoly char_lt char_zero chainA powA 4194303 (by decide +kernel)

set_option maxRecDepth 100000 in
theorem pow_B : powB < 2 ^ 64 ∧ ∀ v, act step 130 powB v = times step 4398046511103 v :=
  power_ok step step_xor charPoly char_lt char_zero chainB powB 4398046511103 (by decide +kernel)

theorem proj_A (v : BitVec 64) : times step 4194303 (act step 130 projA v) = act step 130 projA v :=
  project_ok step step_xor charPoly char_lt char_zero powA 4194303 projA quotA pow_A.1 pow_A.2 (by decide +kernel) v

theorem proj_B (v : BitVec 64) : times step 4398046511103 (act step 130 projB v) = act step 130 projB v :=
  project_ok step step_xor charPoly char_lt char_zero powB 4398046511103 projB quotB pow_B.1 pow_B.2 (by decide +kernel) v

theorem proj_sum (v : BitVec 64) : act step 130 projA v ^^^ act step 130 projB v = v := by
  rw [← act_p, show Nat.xor projA projB = 1 by decide +kernel, act_one]

set_option maxRecDepth 100000 in
theorem inv_A3 (v : BitVec 64) (h : times step 1398101 v = v) : v = 0#64 :=
  have p := power_ok step step_xor charPoly char_lt char_zero chainA3 powA3 1398101 (by decide +kernel)
  inverse_ok step step_xor charPoly char_lt char_zero powA3 1398101 invA3 quotA3 p.1 p.2 (by decide +kernel) v h

set_option maxRecDepth 100000 in
theorem inv_A23 (v : BitVec 64) (h : times step 182361 v = v) : v = 0#64 :=
  have p := power_ok step step_xor charPoly char_lt char_zero chainA23 powA23 182361 (by decide +kernel)
  inverse_ok step step_xor charPoly char_lt char_zero powA23 182361 invA23 quotA23 p.1 p.2 (by decide +kernel) v h

set_option maxRecDepth 100000 in
theorem inv_A89 (v : BitVec 64) (h : times step 47127 v = v) : v = 0#64 :=
  have p := power_ok step step_xor charPoly char_lt char_zero chainA89 powA89 47127 (by decide +kernel)
  inverse_ok step step_xor charPoly char_lt char_zero powA89 47127 invA89 quotA89 p.1 p.2 (by decide +kernel) v h

set_option maxRecDepth 100000 in
theorem inv_A683 (v : BitVec 64) (h : times step 6141 v = v) : v = 0#64 :=
  have p := power_ok step step_xor charPoly char_lt char_zero chainA683 powA683 6141 (by decide +kernel)
  inverse_ok step step_xor charPoly char_lt char_zero powA683 6141 invA683 quotA683 p.1 p.2 (by decide +kernel) v h

set_option maxRecDepth 100000 in
theorem inv_B3 (v : BitVec 64) (h : times step 1466015503701 v = v) : v = 0#64 :=
  have p := power_ok step step_xor charPoly char_lt char_zero chainB3 powB3 1466015503701 (by decide +kernel)
  inverse_ok step step_xor charPoly char_lt char_zero powB3 1466015503701 invB3 quotB3 p.1 p.2 (by decide +kernel) v h

set_option maxRecDepth 100000 in
theorem inv_B7 (v : BitVec 64) (h : times step 628292358729 v = v) : v = 0#64 :=
  have p := power_ok step step_xor charPoly char_lt char_zero chainB7 powB7 628292358729 (by decide +kernel)
  inverse_ok step step_xor charPoly char_lt char_zero powB7 628292358729 invB7 quotB7 p.1 p.2 (by decide +kernel) v h

set_option maxRecDepth 100000 in
theorem inv_B43 (v : BitVec 64) (h : times step 102280151421 v = v) : v = 0#64 :=
  have p := power_ok step step_xor charPoly char_lt char_zero chainB43 powB43 102280151421 (by decide +kernel)
  inverse_ok step step_xor charPoly char_lt char_zero powB43 102280151421 invB43 quotB43 p.1 p.2 (by decide +kernel) v h

set_option maxRecDepth 100000 in
theorem inv_B127 (v : BitVec 64) (h : times step 34630287489 v = v) : v = 0#64 :=
  have p := power_ok step step_xor charPoly char_lt char_zero chainB127 powB127 34630287489 (by decide +kernel)
  inverse_ok step step_xor charPoly char_lt char_zero powB127 34630287489 invB127 quotB127 p.1 p.2 (by decide +kernel) v h

set_option maxRecDepth 100000 in
theorem inv_B337 (v : BitVec 64) (h : times step 13050583119 v = v) : v = 0#64 :=
  have p := power_ok step step_xor charPoly char_lt char_zero chainB337 powB337 13050583119 (by decide +kernel)
  inverse_ok step step_xor charPoly char_lt char_zero powB337 13050583119 invB337 quotB337 p.1 p.2 (by decide +kernel) v h

set_option maxRecDepth 100000 in
theorem inv_B5419 (v : BitVec 64) (h : times step 811597437 v = v) : v = 0#64 :=
  have p := power_ok step step_xor charPoly char_lt char_zero chainB5419 powB5419 811597437 (by decide +kernel)
  inverse_ok step step_xor charPoly char_lt char_zero powB5419 811597437 invB5419 quotB5419 p.1 p.2 (by decide +kernel) v h

/-! ## Periods -/

theorem times_iterate {α : Type} (f : α → α) (k : Nat) (v : α) : times f k v = f^[k] v := by
  induction k with
  | zero => rfl
  | succ k ih => rw [Function.iterate_succ_apply', ← ih]; rfl

/-- A divisor that divides no quotient by a prime is all. -/
theorem full (m n : Nat) (hn : 0 < n) (hm : m ∣ n) (h : ∀ q, q.Prime → q ∣ n → ¬ m ∣ n / q) : m = n := by
  obtain ⟨k, rfl⟩ := hm
  by_cases hk : k = 1
  · rw [hk, Nat.mul_one]
  · obtain ⟨q, hq, c, rfl⟩ := Nat.exists_prime_and_dvd hk
    refine absurd ⟨c, ?_⟩ (h q hq ⟨m * c, by rw [Nat.mul_left_comm]⟩)
    rw [Nat.mul_left_comm, Nat.mul_div_cancel_left _ hq.pos]

theorem primes_A (q : Nat) (hq : q.Prime) (h : q ∣ 4194303) : q = 3 ∨ q = 23 ∨ q = 89 ∨ q = 683 := by
  rw [show 4194303 = 3 * 23 * 89 * 683 by norm_num, hq.dvd_mul, hq.dvd_mul, hq.dvd_mul,
    Nat.prime_dvd_prime_iff_eq hq (by norm_num), Nat.prime_dvd_prime_iff_eq hq (by norm_num), Nat.prime_dvd_prime_iff_eq hq (by norm_num), Nat.prime_dvd_prime_iff_eq hq (by norm_num)] at h
  tauto

theorem primes_B (q : Nat) (hq : q.Prime) (h : q ∣ 4398046511103) : q = 3 ∨ q = 7 ∨ q = 43 ∨ q = 127 ∨ q = 337 ∨ q = 5419 := by
  rw [show 4398046511103 = 3 * 3 * 7 * 7 * 43 * 127 * 337 * 5419 by norm_num, hq.dvd_mul, hq.dvd_mul, hq.dvd_mul, hq.dvd_mul, hq.dvd_mul, hq.dvd_mul, hq.dvd_mul,
    Nat.prime_dvd_prime_iff_eq hq (by norm_num), Nat.prime_dvd_prime_iff_eq hq (by norm_num), Nat.prime_dvd_prime_iff_eq hq (by norm_num), Nat.prime_dvd_prime_iff_eq hq (by norm_num),
    Nat.prime_dvd_prime_iff_eq hq (by norm_num), Nat.prime_dvd_prime_iff_eq hq (by norm_num)] at h
  tauto

open Function (minimalPeriod)

theorem per_iff (v : BitVec 64) (k : Nat) : times step k v = v ↔ minimalPeriod step v ∣ k := by
  rw [times_iterate]
  exact Function.isPeriodicPt_iff_minimalPeriod_dvd

theorem period_A (u : BitVec 64) (h0 : u ≠ 0#64) (h : times step 4194303 u = u) : minimalPeriod step u = 4194303 := by
  refine full _ _ (by norm_num) ((per_iff u _).1 h) fun q hq hd hm => h0 ?_
  have := (per_iff u _).2 hm
  rcases primes_A q hq hd with e | e | e | e <;> subst e
  · exact inv_A3 u this
  · exact inv_A23 u this
  · exact inv_A89 u this
  · exact inv_A683 u this

theorem period_B (u : BitVec 64) (h0 : u ≠ 0#64) (h : times step 4398046511103 u = u) : minimalPeriod step u = 4398046511103 := by
  refine full _ _ (by norm_num) ((per_iff u _).1 h) fun q hq hd hm => h0 ?_
  have := (per_iff u _).2 hm
  rcases primes_B q hq hd with e | e | e | e | e | e <;> subst e
  · exact inv_B3 u this
  · exact inv_B7 u this
  · exact inv_B43 u this
  · exact inv_B127 u this
  · exact inv_B337 u this
  · exact inv_B5419 u this

/-- The period of a polynomial of the step, applied to a state, divides the period of the state. -/
theorem period_act (p : Nat) (v : BitVec 64) : minimalPeriod step (act step 130 p v) ∣ minimalPeriod step v := by
  rw [← per_iff, act_times step step_xor, (per_iff v _).2 (dvd_refl _)]

theorem period_some (v : BitVec 64) (h0 : v ≠ 0#64) :
    (act step 130 projB v = 0#64 → minimalPeriod step v = 4194303) ∧ (act step 130 projA v = 0#64 → minimalPeriod step v = 4398046511103) ∧
    (act step 130 projA v ≠ 0#64 → act step 130 projB v ≠ 0#64 → minimalPeriod step v = 6148913225219615403) := by
  have hs := proj_sum v
  refine ⟨fun h => ?_, fun h => ?_, fun hA hB => ?_⟩
  · rw [h, BitVec.xor_zero] at hs
    exact period_A v h0 (by rw [← hs]; exact proj_A v)
  · rw [h, BitVec.zero_xor] at hs
    exact period_B v h0 (by rw [← hs]; exact proj_B v)
  · have dA := period_act projA v
    have dB := period_act projB v
    rw [period_A _ hA (proj_A v)] at dA
    rw [period_B _ hB (proj_B v)] at dB
    apply Nat.dvd_antisymm
    · rw [← per_iff]
      have e1 : times step 6148913225219615403 (act step 130 projA v) = act step 130 projA v := by
        rw [per_iff, period_A _ hA (proj_A v)]; norm_num
      have e2 : times step 6148913225219615403 (act step 130 projB v) = act step 130 projB v := by
        rw [per_iff, period_B _ hB (proj_B v)]; norm_num
      have e3 := times_xor step step_xor 6148913225219615403 (act step 130 projA v) (act step 130 projB v)
      rw [e1, e2, hs] at e3
      exact e3
    · have : Nat.lcm 4194303 4398046511103 = 6148913225219615403 := by decide +kernel
      rw [← this]
      exact Nat.lcm_dvd dA dB

theorem has_period (s : Micro) (p : Nat) (hp : 0 < p) (h : minimalPeriod step (code s) = p) : s.HasPeriod p := by
  have key : ∀ i d, (∀ n, s.out (i + n) = s.out (i + d + n)) ↔ p ∣ d := by
    intro i d
    constructor
    · intro hn
      have := micro_two_results (Micro.after d s) s 0 i (by rw [Nat.zero_add, ← micro_out_after, Nat.add_comm d i]; exact (hn 0).symm)
        (by rw [Nat.zero_add, ← micro_out_after, show d + (i + 1) = i + d + 1 by omega]; exact (hn 1).symm)
      obtain ⟨hx, hw⟩ := micro_prev_n (s := s) (t := s) d 2 (by
        rw [show d + 2 = d + 1 + 1 by omega, micro_x, micro_two, micro_x, micro_two]
        have := this 0
        rwa [Nat.zero_add, ← micro_out_after, Nat.add_zero] at this) (by
        rw [show d + 2 = d + 1 + 1 by omega, micro_two, micro_two]
        have := this 1
        rwa [Nat.zero_add, ← micro_out_after] at this)
      rw [← h, ← per_iff, ← step_after]
      unfold code
      rw [hx, hw]
    · intro hd n
      rw [← h, ← per_iff, ← step_after] at hd
      obtain ⟨hx, hw⟩ := code_inj hd
      rw [show i + d + n = d + (i + n) by omega, micro_out_after s d, micro_out_congr hx hw]
  intro i j
  rcases Nat.le_total i j with hij | hij
  · obtain ⟨d, rfl⟩ := Nat.exists_eq_add_of_le hij
    rw [key i d]
    constructor
    · rintro ⟨k, rfl⟩
      rw [Nat.add_mul_mod_self_left]
    · intro e
      have := Nat.sub_mod_eq_zero_of_mod_eq e.symm
      rw [Nat.add_sub_cancel_left] at this
      exact Nat.dvd_of_mod_eq_zero this
  · obtain ⟨d, rfl⟩ := Nat.exists_eq_add_of_le hij
    have hk := key j d
    constructor
    · intro hn
      obtain ⟨k, rfl⟩ := hk.1 (fun n => (hn n).symm)
      rw [Nat.add_mul_mod_self_left]
    · intro e n
      have := Nat.sub_mod_eq_zero_of_mod_eq e
      rw [Nat.add_sub_cancel_left] at this
      exact (hk.2 (Nat.dvd_of_mod_eq_zero this) n).symm

theorem code_zero (s : Micro) (h : ¬ (s.x = 0 ∧ s.w = 0)) : code s ≠ 0#64 := by
  intro e
  have : code s = code ⟨0, 0, 0, 0⟩ := by rw [e]; decide
  exact h (code_inj this)

set_option maxRecDepth 100000 in
theorem act_bit (p : Nat) (hp : p < 2 ^ 64) : act step 130 p 1#64 = BitVec.ofNat 64 (sel 64 states.tail p) := by
  rw [act_le step 64 130 p (by omega) hp]
  exact sel_act step p states.tail.tail states.tail.head! (by decide +kernel)

set_option maxRecDepth 100000 in
theorem projA_bit : act step 130 projA 1#64 = 0xbb7294e53ae0296f#64 := by
  rw [act_bit projA (by decide), show sel 64 states.tail projA = 0xbb7294e53ae0296f by decide +kernel]

set_option maxRecDepth 100000 in
theorem projB_bit : act step 130 projB 1#64 = 0xbb7294e53ae0296e#64 := by
  rw [act_bit projB (by decide), show sel 64 states.tail projB = 0xbb7294e53ae0296e by decide +kernel]

end Period

open Period

/-- C238: whatever the state, unless `x` and `w` are 0, the results of `MarsagliaRNGMicro` repeat after exactly `2^22 - 1`, `2^42 - 1` or `(2^22 - 1) (2^42 - 1) / 3` of them. -/
theorem micro_period (s : Micro) (h : ¬ (s.x = 0 ∧ s.w = 0)) :
    s.HasPeriod (2 ^ 22 - 1) ∨ s.HasPeriod (2 ^ 42 - 1) ∨ s.HasPeriod ((2 ^ 22 - 1) * (2 ^ 42 - 1) / 3) := by
  obtain ⟨hA, hB, hP⟩ := period_some (code s) (code_zero s h)
  by_cases h1 : act step 130 projB (code s) = 0#64
  · exact .inl (has_period s _ (by decide) (hA h1))
  · by_cases h2 : act step 130 projA (code s) = 0#64
    · exact .inr (.inl (has_period s _ (by decide) (hB h2)))
    · exact .inr (.inr (has_period s _ (by decide) (hP h2 h1)))

/-- C238: all three occur. -/
theorem micro_period_all : (⟨0xbb7294e5, 0, 0, 0x3ae0296f⟩ : Micro).HasPeriod (2 ^ 22 - 1) ∧ (⟨0xbb7294e5, 0, 0, 0x3ae0296e⟩ : Micro).HasPeriod (2 ^ 42 - 1) ∧
    (⟨0, 0, 0, 1⟩ : Micro).HasPeriod ((2 ^ 22 - 1) * (2 ^ 42 - 1) / 3) := by
  refine ⟨has_period _ _ (by decide) ?_, has_period _ _ (by decide) ?_, has_period _ _ (by decide) ?_⟩
  · rw [show code ⟨0xbb7294e5, 0, 0, 0x3ae0296f⟩ = act step 130 projA 1#64 by rw [projA_bit]; decide]
    exact period_A _ (by rw [projA_bit]; decide) (proj_A 1#64)
  · rw [show code ⟨0xbb7294e5, 0, 0, 0x3ae0296e⟩ = act step 130 projB 1#64 by rw [projB_bit]; decide]
    exact period_B _ (by rw [projB_bit]; decide) (proj_B 1#64)
  · rw [show code ⟨0, 0, 0, 1⟩ = 1#64 by decide]
    exact (period_some 1#64 (by decide)).2.2 (by rw [projA_bit]; decide) (by rw [projB_bit]; decide)

/-- C238, false of the code: that the generator has the period of xorshift128, which it is meant to be (and which is `2^128 - 1` unless all four words are 0). No state has a period of `2^63` or more; among the nearly `2^128` states with distinct `x`, `y`, `z`, `w` that are not 0 there is one that repeats after four million results. -/
theorem micro_xorshift_false : (∀ s : Micro, ∃ p, 0 < p ∧ p < 2 ^ 63 ∧ ∀ n, s.out (p + n) = s.out n) ∧
    ∃ s : Micro, s.x ≠ 0 ∧ s.y ≠ 0 ∧ s.z ≠ 0 ∧ s.w ≠ 0 ∧ ∀ n, s.out (4194303 + n) = s.out n := by
  constructor
  · intro s
    have use : ∀ p, 0 < p → p < 2 ^ 63 → s.HasPeriod p → ∃ p, 0 < p ∧ p < 2 ^ 63 ∧ ∀ n, s.out (p + n) = s.out n := by
      intro p h0 h1 h
      refine ⟨p, h0, h1, fun n => ?_⟩
      have := (h p 0).2 (by rw [Nat.mod_self, Nat.zero_mod]) n
      rwa [Nat.zero_add] at this
    by_cases h : s.x = 0 ∧ s.w = 0
    · refine ⟨1, by decide, by decide, fun n => ?_⟩
      have hz : ∀ k, (Micro.after k s).x = 0 ∧ (Micro.after k s).w = 0 := by
        intro k
        induction k with
        | zero => exact h
        | succ k ih =>
          rw [micro_after_succ]
          refine ⟨ih.2, ?_⟩
          show (_ ^^^ _) = _
          rw [ih.1, ih.2]
          decide
      rw [← micro_two, ← micro_two, (hz _).2, (hz _).2]
    · rcases micro_period s h with h | h | h
      · exact use _ (by decide) (by decide) h
      · exact use _ (by decide) (by decide) h
      · exact use _ (by decide) (by decide) h
  · refine ⟨⟨0xbb7294e5, 1, 2, 0x3ae0296f⟩, by decide, by decide, by decide, by decide, fun n => ?_⟩
    have := ((micro_period_all.1) 4194303 0).2 (by decide) n
    rw [Nat.zero_add] at this
    rw [micro_out_congr (s := ⟨0xbb7294e5, 1, 2, 0x3ae0296f⟩) (t := ⟨0xbb7294e5, 0, 0, 0x3ae0296f⟩) rfl rfl, this]
    exact micro_out_congr (s := ⟨0xbb7294e5, 0, 0, 0x3ae0296f⟩) (t := ⟨0xbb7294e5, 1, 2, 0x3ae0296f⟩) rfl rfl n

end Verif.Rng
