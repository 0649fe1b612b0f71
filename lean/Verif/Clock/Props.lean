import Verif.Clock.Cycle

/-! # Properties of the clock (C42, C43, C78-C80) -/

namespace Verif.Clock

open Verif.Flt

/-! ## Conversions -/

theorem ceil_exists (n m : Nat) (hm : 0 < m) : ∃ c, n ≤ c * m ∧ c * m < n + m := by
  refine ⟨(n + m - 1) / m, ?_, ?_⟩
  · have := Nat.div_add_mod (n + m - 1) m
    have h2 := Nat.mod_lt (n + m - 1) hm
    rw [Nat.mul_comm] at this
    omega
  · have := Nat.div_mul_le_self (n + m - 1) m
    omega

/-- **C42.** Seconds and microseconds survive the conversion to `Tfrac` and back, with every rounding to nearest. -/
theorem micro_round_trip (F : Rounding) (s us : Nat) (hs : s < 2 ^ 32) (hu : us < 1000000) :
    ∃ t, secMicroToTfrac F s us = .ok t ∧ t < 2 ^ 64 ∧ tfracToSec t = s ∧ tfracToMicroSec F t = .ok us ∧
      tfracToTll F t = .ok (s * 1000000 + us) := by
  obtain ⟨c, h1, h2⟩ := ceil_exists (us * 2 ^ 32) 1000000 (by norm_num)
  have hc : c < 2 ^ 32 := by linarith
  have hlow : (s * 2 ^ 32 + c) % 2 ^ 32 = c := by omega
  have hsec : tfracToSec (s * 2 ^ 32 + c) = s := by unfold tfracToSec; omega
  have hmic : tfracToMicroSec F (s * 2 ^ 32 + c) = .ok us :=
    micro_low F _ us (by rw [hlow]; linarith) (by rw [hlow]; linarith)
  refine ⟨_, secMicro_ok F s us c hs hu h1 h2, by linarith, hsec, hmic, ?_⟩
  unfold tfracToTll
  rw [hmic, hsec]; rfl

/-- **C42** for nanoseconds. -/
theorem nano_round_trip (F : Rounding) (s ns : Nat) (hs : s < 2 ^ 32) (hu : ns < 1000000000) :
    ∃ t, secNanoToTfrac F s ns = .ok t ∧ t < 2 ^ 64 ∧ tfracToSec t = s ∧ tfracToNanoSec F t = .ok ns := by
  obtain ⟨c, h1, h2⟩ := ceil_exists (ns * 2 ^ 32) 1000000000 (by norm_num)
  have hc : c < 2 ^ 32 := by linarith
  have hlow : (s * 2 ^ 32 + c) % 2 ^ 32 = c := by omega
  exact ⟨_, secNano_ok F s ns c hs hu h1 h2, by linarith, by unfold tfracToSec; omega,
    nano_low F _ ns (by rw [hlow]; linarith) (by rw [hlow]; linarith)⟩

/-- **C42, the values between.** The time made from seconds and microseconds is the first `Tfrac` not before them; so
earlier times give smaller values. -/
theorem micro_is_ceiling (F : Rounding) (s us : Nat) (hs : s < 2 ^ 32) (hu : us < 1000000) :
    ∃ t, secMicroToTfrac F s us = .ok t ∧ IsCeil t (((s : ℚ) + us / 1000000) * 2 ^ 32) := by
  obtain ⟨c, h1, h2⟩ := ceil_exists (us * 2 ^ 32) 1000000 (by norm_num)
  refine ⟨_, secMicro_ok F s us c hs hu h1 h2, ?_⟩
  have q1 : (us : ℚ) * 2 ^ 32 ≤ c * 1000000 := by exact_mod_cast h1
  have q2 : (c : ℚ) * 1000000 < us * 2 ^ 32 + 1000000 := by exact_mod_cast h2
  constructor <;> push_cast <;> linarith

theorem nano_is_ceiling (F : Rounding) (s ns : Nat) (hs : s < 2 ^ 32) (hu : ns < 1000000000) :
    ∃ t, secNanoToTfrac F s ns = .ok t ∧ IsCeil t (((s : ℚ) + ns / 1000000000) * 2 ^ 32) := by
  obtain ⟨c, h1, h2⟩ := ceil_exists (ns * 2 ^ 32) 1000000000 (by norm_num)
  refine ⟨_, secNano_ok F s ns c hs hu h1 h2, ?_⟩
  have q1 : (ns : ℚ) * 2 ^ 32 ≤ c * 1000000000 := by exact_mod_cast h1
  have q2 : (c : ℚ) * 1000000000 < ns * 2 ^ 32 + 1000000000 := by exact_mod_cast h2
  constructor <;> push_cast <;> linarith

/-- **C42.** Of every `Tfrac`, the microseconds and nanoseconds taken out are the exact whole parts: no rounding of
the doubles in between shows. -/
theorem extraction_exact (F : Rounding) (t : Nat) :
    (∃ k, tfracToMicroSec F t = .ok k ∧ IsFloor k (fraction t * 1000000)) ∧
    (∃ k, tfracToNanoSec F t = .ok k ∧ IsFloor k (fraction t * 1000000000)) := by
  have fl : ∀ m : Nat, (t % 2 ^ 32 * m / 2 ^ 32) * 2 ^ 32 ≤ t % 2 ^ 32 * m ∧
      t % 2 ^ 32 * m < (t % 2 ^ 32 * m / 2 ^ 32 + 1) * 2 ^ 32 := by
    intro m; generalize t % 2 ^ 32 * m = x; omega
  constructor
  · obtain ⟨h1, h2⟩ := fl 1000000
    refine ⟨_, micro_low F t _ h1 h2, ?_⟩
    generalize t % 2 ^ 32 * 1000000 / 2 ^ 32 = n at *
    have q1 : (n : ℚ) * 2 ^ 32 ≤ (t % 2 ^ 32 : Nat) * 1000000 := by exact_mod_cast h1
    have q2 : ((t % 2 ^ 32 : Nat) : ℚ) * 1000000 < (n + 1) * 2 ^ 32 := by exact_mod_cast h2
    unfold fraction IsFloor
    rw [div_mul_eq_mul_div, le_div_iff₀ (by norm_num), div_lt_iff₀ (by norm_num)]
    exact ⟨q1, q2⟩
  · obtain ⟨h1, h2⟩ := fl 1000000000
    refine ⟨_, nano_low F t _ h1 h2, ?_⟩
    generalize t % 2 ^ 32 * 1000000000 / 2 ^ 32 = n at *
    have q1 : (n : ℚ) * 2 ^ 32 ≤ (t % 2 ^ 32 : Nat) * 1000000000 := by exact_mod_cast h1
    have q2 : ((t % 2 ^ 32 : Nat) : ℚ) * 1000000000 < (n + 1) * 2 ^ 32 := by exact_mod_cast h2
    unfold fraction IsFloor
    rw [div_mul_eq_mul_div, le_div_iff₀ (by norm_num), div_lt_iff₀ (by norm_num)]
    exact ⟨q1, q2⟩

example : (4294967295 : Nat) < 2 ^ 32 ∧ (999999 : Nat) < 1000000 ∧ (999999999 : Nat) < 1000000000 := by decide

/-- **C80.** `TfracToDouble` is the nearest double to the time, so it keeps the order of times. -/
theorem tfracToDouble_nearest (F : Rounding) (t : Nat) (ht : t < 2 ^ 64) :
    tfracToDouble F t = F.rnd ((t : ℚ) / 2 ^ 32) := by
  have hd : IsDouble (((t % 2 ^ 32 : Nat) : ℚ) / 4294967296) :=
    isDouble_nat_scale (t % 2 ^ 32) (by omega) (-32) (by norm_num; ring)
  unfold tfracToDouble tfracToSec
  rw [F.exact hd]
  congr 1
  have h1 : t / 2 ^ 32 % 2 ^ 32 * 2 ^ 32 + t % 2 ^ 32 = t := by omega
  have h2 : ((t / 2 ^ 32 % 2 ^ 32 : Nat) : ℚ) * 2 ^ 32 + ((t % 2 ^ 32 : Nat) : ℚ) = t := by exact_mod_cast h1
  rw [← h2]
  norm_num
  ring

theorem tfracToDouble_order (F : Rounding) (t u : Nat) (hu : u < 2 ^ 64) (h : t ≤ u) :
    tfracToDouble F t ≤ tfracToDouble F u := by
  rw [tfracToDouble_nearest F t (by omega), tfracToDouble_nearest F u hu]
  apply F.mono
  have : (t : ℚ) ≤ u := by exact_mod_cast h
  rw [div_le_div_iff_of_pos_right (by norm_num)]
  exact this

/-- **C43, what holds.** `secondsToTfrac` is within half a unit, for every time in range that is not in the last half
unit before a whole second. Missing: those times. -/
theorem secondsToTfrac_partial (F : Rounding) (s : ℚ) (hd : IsDouble s) (h0 : 0 ≤ s) (h1 : s < 2 ^ 32 - 1)
    (h2 : (s - ⌊s⌋) * 2 ^ 32 < 2 ^ 32 - 1 / 2) :
    ∃ t, secondsToTfrac F s = .ok t ∧ t < 2 ^ 64 ∧ |(t : ℚ) - s * 2 ^ 32| ≤ 1 / 2 := by
  rw [seconds_ok F hd h0 (by linarith), if_neg (by linarith)]
  refine ⟨_, rfl, ?_⟩
  have hf0 : 0 ≤ ⌊s⌋ := Int.floor_nonneg.2 h0
  have hfr0 : 0 ≤ s - ⌊s⌋ := Int.fract_nonneg s
  obtain ⟨n, hn⟩ := Int.eq_ofNat_of_zero_le hf0
  have hk0 : 0 ≤ ⌊(s - ⌊s⌋) * 2 ^ 32 + 1 / 2⌋ := Int.floor_nonneg.2 (by linarith)
  obtain ⟨k, hk⟩ := Int.eq_ofNat_of_zero_le hk0
  have e1 := Int.floor_le ((s - ⌊s⌋) * 2 ^ 32 + 1 / 2)
  have e2 := Int.lt_floor_add_one ((s - ⌊s⌋) * 2 ^ 32 + 1 / 2)
  have hns : (n : ℚ) ≤ s := by have := Int.floor_le s; rw [hn] at this; exact_mod_cast this
  rw [hk] at e1 e2 ⊢
  rw [hn] at e1 e2 h2 ⊢
  simp only [Int.toNat_natCast, Int.cast_natCast] at e1 e2 h2 ⊢
  constructor
  · have hk : (k : ℚ) < 2 ^ 32 := by linarith
    have hk' : k < 2 ^ 32 := by exact_mod_cast hk
    have hn' : (n : ℚ) < 2 ^ 32 - 1 := by linarith
    have hn2 : (n : ℚ) + 1 < 2 ^ 32 := by linarith
    have hn3 : n + 1 < 2 ^ 32 := by exact_mod_cast hn2
    linarith
  · push_cast
    rw [abs_le]
    constructor <;> linarith

/-- **C43, refuted.** In the last half unit before every whole second the fraction rounds to `2^32`, which does not fit
the `uint32_t` it is converted to: undefined behaviour. -/
theorem secondsToTfrac_bug (F : Rounding) (s : ℚ) (hd : IsDouble s) (h0 : 0 ≤ s) (h1 : s < 2 ^ 32 - 1)
    (h2 : 2 ^ 32 - 1 / 2 ≤ (s - ⌊s⌋) * 2 ^ 32) : secondsToTfrac F s = .ub := by
  rw [seconds_ok F hd h0 (by linarith), if_pos h2]

/-- Such a time: `1 - 2^-40` seconds. -/
example : IsDouble (1 - 1 / 2 ^ 40) ∧ (2 ^ 32 - 1 / 2 : ℚ) ≤ (1 - 1 / 2 ^ 40 - ⌊(1 - 1 / 2 ^ 40 : ℚ)⌋) * 2 ^ 32 := by
  have : ⌊(1 - 1 / 2 ^ 40 : ℚ)⌋ = 0 := by rw [Int.floor_eq_iff]; norm_num
  rw [this]
  exact ⟨⟨2 ^ 40 - 1, -40, by norm_num, by norm_num⟩, by norm_num⟩

/-- One and a half seconds meet the hypotheses of `secondsToTfrac_partial`. -/
example : IsDouble (3 / 2) ∧ ((3 / 2 : ℚ) - ⌊(3 / 2 : ℚ)⌋) * 2 ^ 32 < 2 ^ 32 - 1 / 2 := by
  have : ⌊(3 / 2 : ℚ)⌋ = 1 := by rw [Int.floor_eq_iff]; norm_num
  rw [this]
  exact ⟨⟨3, -1, by norm_num, by norm_num⟩, by norm_num⟩

/-- **C43.** Times out of range: above, the program stops; below zero, the conversion is undefined. -/
theorem secondsToTfrac_range (F : Rounding) (s : ℚ) :
    (2 ^ 32 - 1 ≤ s → secondsToTfrac F s = .abort) ∧ (s < 0 → secondsToTfrac F s = .ub) := by
  constructor
  · intro h
    unfold secondsToTfrac
    rw [decide_eq_false (by linarith)]; rfl
  · intro h
    unfold secondsToTfrac
    rw [decide_eq_true (by linarith)]
    have : ⌊s⌋ ≤ -1 := by
      have : ⌊s⌋ < 0 := by rw [Int.floor_lt]; exact_mod_cast h
      omega
    have h2 : ((⌊s⌋ : ℤ) : ℚ) ≤ -1 := by exact_mod_cast this
    simp only [toU32, Res.require_true, Res.bind_ok, h2, true_or, if_true, Res.bind_ub]

/-- **C43, offsets.** `TfracOffsetDouble` moves a time by the converted offset, forwards or backwards, modulo `2^64`. -/
theorem tfracOffset_partial (F : Rounding) (t : Nat) (d : ℚ) (hd : IsDouble d) (h1 : |d| < 2 ^ 32 - 1)
    (h2 : (|d| - ⌊|d|⌋) * 2 ^ 32 < 2 ^ 32 - 1 / 2) (h3 : 0 ≤ d ∨ |d| * 2 ^ 32 < 2 ^ 63 - 1) :
    ∃ (c : ℤ) (u : Nat), |(c : ℚ) - d * 2 ^ 32| ≤ 1 / 2 ∧ tfracOffsetDouble F t d = .ok u ∧
      (u : ℤ) = (t + c) % 2 ^ 64 := by
  unfold tfracOffsetDouble
  by_cases hn : d < 0
  · rw [if_pos hn]
    rw [abs_of_neg hn] at h1 h2 h3
    obtain ⟨c, e1, e2, e3⟩ := secondsToTfrac_partial F (-d) (isDouble_neg hd) (by linarith) h1 h2
    have hc : c < 2 ^ 63 := by
      have h4 := h3.resolve_left (by linarith)
      have := (abs_le.1 e3).2
      have h5 : (c : ℚ) < 2 ^ 63 := by linarith
      exact_mod_cast h5
    have ec : (((-(c : ℤ)) : ℤ) : ℚ) = -(c : ℚ) := by push_cast; ring
    refine ⟨-(c : ℤ), (t + (2 ^ 64 - c)) % 2 ^ 64, ?_, ?_, ?_⟩
    · rw [ec, ← abs_neg]
      have : -(-(c : ℚ) - d * 2 ^ 32) = c - -d * 2 ^ 32 := by ring
      rw [this]; exact e3
    · rw [e1, Res.bind_ok, if_neg (by omega)]; rfl
    · push_cast
      omega
  · rw [if_neg hn]
    push Not at hn
    rw [abs_of_nonneg hn] at h1 h2
    obtain ⟨c, e1, e2, e3⟩ := secondsToTfrac_partial F d hd hn h1 h2
    exact ⟨c, (t + c) % 2 ^ 64, by exact_mod_cast e3, by rw [e1]; rfl, by push_cast; rfl⟩

/-- **C43, refuted for offsets.** Moving back by exactly `2^31` seconds negates the smallest `int64_t`. -/
theorem tfracOffset_bug (F : Rounding) (t : Nat) : tfracOffsetDouble F t (-2147483648) = .ub := by
  unfold tfracOffsetDouble
  rw [if_pos (by norm_num)]
  have hd : IsDouble 2147483648 := ⟨1, 31, by norm_num, by norm_num⟩
  rw [show (- -2147483648 : ℚ) = 2147483648 by norm_num, seconds_ok F hd (by norm_num) (by norm_num)]
  have hf : ⌊(2147483648 : ℚ)⌋ = 2147483648 := by rw [Int.floor_eq_iff]; norm_num
  rw [hf, if_neg (by norm_num), show ⌊((2147483648 : ℚ) - (2147483648 : ℤ)) * 2 ^ 32 + 1 / 2⌋ = 0 by
    rw [Int.floor_eq_iff]; norm_num, Res.bind_ok, if_pos (by decide)]

/-! ## The cycle-counter clock -/

/-- The statics at program start after `allowUnsafeFrequencyScaling(m)`. -/
def start (m : Mode) : Globals := ⟨m, true, none, none, 0⟩

theorem rnd_pos (F : Rounding) {x : ℚ} (h : 0 < x) : 0 < F.rnd x := by
  have h1 := Int.zpow_log_le_self (b := 2) (by norm_num) h
  have hd : IsDouble ((2 : ℚ) ^ Int.log 2 x) := ⟨1, Int.log 2 x, by norm_num, by simp⟩
  have hp : (0 : ℚ) < 2 ^ Int.log 2 x := zpow_pos (by norm_num) _
  exact lt_of_lt_of_le hp (F.ge_of_double hd (by exact_mod_cast h1))

theorem newClock_good {F : Rounding} {m : Mode} (hm : m ≠ .useTod) {al sc : Bool} {mm : Nat} {mhz : ℚ} {g : Globals} {c : Clk}
    (h : newClock F (start m) al sc mm mhz = .ok (g, c)) :
    ∃ i, g.inv = some i ∧ 0 < i ∧ (∃ r, g.rate = some r) ∧ Good F i c := by
  simp only [newClock, Res.bind_eq_ok] at h
  obtain ⟨g1, hg, c1, h2, h3⟩ := h
  rw [ensureCalibrated, if_neg (by simp [isCalibrated, start, hm])] at hg
  simp only [Res.bind_eq_ok] at hg
  obtain ⟨_, _, hg⟩ := hg
  unfold calibrateClock at hg
  rw [if_neg (by simp [start]), if_neg (by simpa [start] using hm)] at hg
  simp only at hg
  split at hg
  · cases hg
  simp only [Res.bind_eq_ok] at hg
  obtain ⟨_, _, u2, h200, hg⟩ := hg
  cases hg
  cases h3
  have hmhz : 200 < mhz := by
    by_contra hh
    rw [decide_eq_false hh] at h200
    cases h200
  have hi : 0 < F.rnd (F.rnd (1 / mhz) * F.rnd (4294967296 / 1000000)) :=
    rnd_pos F (mul_pos (rnd_pos F (by positivity)) (rnd_pos F (by norm_num)))
  exact ⟨_, rfl, hi, ⟨_, rfl⟩, good_setInterval F rfl rfl (by norm_num) h2⟩

theorem good_program {F : Rounding} {g : Globals} {i r : ℚ} (hi : g.inv = some i) (hr : g.rate = some r) (hi0 : 0 < i) :
    ∀ (calls : List Call) (c c' : Clk) (vs : List Nat), Good F i c → (∀ e, .read e ∈ calls → Seen64 e) →
      program F g c calls = .ok (c', vs) → Good F i c'
  | [], c, c', vs, hg, _, h => by cases h; exact hg
  | .read e :: es, c, c', vs, hg, hs, h => by
    simp only [program, Res.bind_eq_ok] at h
    obtain ⟨⟨c1, v⟩, h1, ⟨c2, ws⟩, h2, h3⟩ := h
    cases h3
    exact good_program hi hr hi0 es c1 _ _ (good_todcc hi hi0 hg (hs e (by simp)) h1)
      (fun e' he' => hs e' (by simp [he'])) h2
  | .interval s :: es, c, c', vs, hg, hs, h => by
    simp only [program, Res.bind_eq_ok] at h
    obtain ⟨c1, h1, h2⟩ := h
    exact good_program hi hr hi0 es c1 _ _ (good_setInterval F hr hi hg.cc64 h1)
      (fun e' he' => hs e' (by simp [he'])) h2

theorem quiet_run {F : Rounding} {g : Globals} {i : ℚ} (hi : g.inv = some i) (hi0 : 0 < i) :
    ∀ (es : List Seen) (c : Clk), Good F i c → (∀ e ∈ es, Seen64 e) → (c.lastCc :: es.map Seen.cc).Pairwise (· < ·) →
      (∀ e ∈ es, e.cc - c.lastRecal ≤ c.interval) → c.lastCal + 2 ^ 30 < 2 ^ 64 →
      ∃ c' vs, readings F g c es = .ok (c', vs) ∧ vs.Pairwise (· ≤ ·) ∧
        (∀ v ∈ vs, c.lastCal ≤ v ∧ v < c.lastCal + 2 ^ 30) ∧
        vs = es.map (fun e => c.lastCal + ⌊F.rnd (((e.cc - c.lastRecal : Nat) : ℚ) * i)⌋.toNat)
  | [], c, _, _, _, _, _ => ⟨c, [], rfl, List.Pairwise.nil, by simp, rfl⟩
  | e :: es, c, hg, h64, hp, hin, hw => by
    simp only [List.map_cons, List.pairwise_cons, List.mem_cons, forall_eq_or_imp] at hp
    obtain ⟨⟨hlt, _⟩, hcc, hp'⟩ := hp
    have hq : Quiet c e := ⟨hlt, hin e (by simp)⟩
    have h1 := quiet_todcc hi hi0 hg (h64 e (by simp)) hq
    have hg' : Good F i { c with lastCc := e.cc } := good_todcc hi hi0 hg (h64 e (by simp)) h1
    obtain ⟨c', vs, r1, r2, r3, r4⟩ := quiet_run hi hi0 es { c with lastCc := e.cc } hg'
      (fun e' he' => h64 e' (by simp [he'])) (List.pairwise_cons.2 ⟨hcc, hp'⟩)
      (fun e' he' => hin e' (by simp [he'])) hw
    have hf := hg.fits _ (hin e (by simp))
    have hfl : ⌊F.rnd (((e.cc - c.lastRecal : Nat) : ℚ) * i)⌋.toNat < 2 ^ 30 := by
      have : ⌊F.rnd (((e.cc - c.lastRecal : Nat) : ℚ) * i)⌋ < 2 ^ 30 := by
        rw [Int.floor_lt]; exact_mod_cast hf
      omega
    rw [Nat.mod_eq_of_lt (by omega)] at h1
    refine ⟨c', (c.lastCal + ⌊F.rnd (((e.cc - c.lastRecal : Nat) : ℚ) * i)⌋.toNat) :: vs, ?_, ?_, ?_, ?_⟩
    · simp only [readings, h1, r1, Res.bind_ok]; rfl
    · refine List.Pairwise.cons ?_ r2
      intro v hv
      rw [r4] at hv
      obtain ⟨e', he', rfl⟩ := List.mem_map.1 hv
      have hlt' : e.cc < e'.cc := hcc e'.cc (List.mem_map_of_mem he')
      simp only
      apply Nat.add_le_add_left
      apply Int.toNat_le_toNat
      apply Int.floor_le_floor
      apply F.mono
      have : ((e.cc - c.lastRecal : Nat) : ℚ) ≤ ((e'.cc - c.lastRecal : Nat) : ℚ) := by
        have : e.cc - c.lastRecal ≤ e'.cc - c.lastRecal := by omega
        exact_mod_cast this
      exact mul_le_mul_of_nonneg_right this hi0.le
    · intro v hv
      rcases List.mem_cons.1 hv with rfl | hv
      · omega
      · exact r3 v hv
    · rw [r4]; rfl

/-- **C78.** On every machine the clock could be calibrated on, after any program of readings and of accepted
interval changes: calls between two recalibrations never lose bits in the 32-bit conversions (they are defined and
stay within a quarter of a second of the last calibration), their readings never go backwards, and each is the last
calibration plus the elapsed cycles times the calibrated rate, rounded to double and cut to a whole unit. -/
theorem readings_monotone (F : Rounding) (m : Mode) (hm : m ≠ .useTod) (al sc : Bool) (mm : Nat) (mhz : ℚ) (g : Globals)
    (c0 c : Clk) (calls : List Call) (ws : List Nat) (h : newClock F (start m) al sc mm mhz = .ok (g, c0))
    (hs : ∀ e, .read e ∈ calls → Seen64 e) (hp : program F g c0 calls = .ok (c, ws)) (es : List Seen)
    (h64 : ∀ e ∈ es, Seen64 e) (hinc : (c.lastCc :: es.map Seen.cc).Pairwise (· < ·))
    (hin : ∀ e ∈ es, e.cc - c.lastRecal ≤ c.interval) (hw : c.lastCal + 2 ^ 30 < 2 ^ 64) :
    ∃ i c' vs, g.inv = some i ∧ readings F g c es = .ok (c', vs) ∧ vs.Pairwise (· ≤ ·) ∧
      (∀ v ∈ vs, c.lastCal ≤ v ∧ v < c.lastCal + 2 ^ 30) ∧
      vs = es.map (fun e => c.lastCal + ⌊F.rnd (((e.cc - c.lastRecal : Nat) : ℚ) * i)⌋.toNat) := by
  obtain ⟨i, hi, hi0, ⟨r, hr⟩, hg⟩ := newClock_good hm h
  obtain ⟨c', vs, r1, r2, r3, r4⟩ := quiet_run hi hi0 es c (good_program hi hr hi0 calls c0 c ws hg hs hp) h64 hinc hin hw
  exact ⟨i, c', vs, hi, r1, r2, r3, r4⟩

/-- **C78.** No reading of a calibrated clock is undefined, whatever the machine shows. -/
theorem readings_defined (F : Rounding) (m : Mode) (hm : m ≠ .useTod) (al sc : Bool) (mm : Nat) (mhz : ℚ) (g : Globals)
    (c0 c : Clk) (calls : List Call) (ws : List Nat) (h : newClock F (start m) al sc mm mhz = .ok (g, c0))
    (hs : ∀ e, .read e ∈ calls → Seen64 e) (hp : program F g c0 calls = .ok (c, ws)) (e : Seen) (he : Seen64 e) :
    todcc F g c e ≠ .ub := by
  obtain ⟨i, hi, hi0, ⟨r, hr⟩, hg0⟩ := newClock_good hm h
  have hg := good_program hi hr hi0 calls c0 c ws hg0 hs hp
  by_cases hq : Quiet c e
  · rw [quiet_todcc hi hi0 hg he hq]; exact fun h => by cases h
  · unfold todcc
    split
    · unfold recalibrate
      split
      · exact fun h => by cases h
      split
      · exact fun h => by cases h
      · rw [hr]
        simp only
        by_cases h1 : 0 < r
        · rw [decide_eq_true h1]
          by_cases h2 : c.lastCal ≤ e.tod
          · rw [decide_eq_true h2]
            simp only [Res.require_true, Res.bind_ok]
            split <;> exact fun h => by cases h
          · rw [decide_eq_false h2]; exact fun h => by cases h
        · rw [decide_eq_false h1]; exact fun h => by cases h
    · next hn =>
      push Not at hn
      exact absurd ⟨hn.1, by rw [← delta_eq (c := c) (e := e) (by have := hg.order; omega) he.1]; exact hn.2⟩ hq

/-- **C79, what holds (1).** With `AUFSO_UseTod` and after `calibrateClock()`, every clock reads the system's time of day
at every call, whatever the machine shows and whatever interval is set. -/
theorem useTod_partial (F : Rounding) (sc al sc' : Bool) (mm mm' : Nat) (mhz mhz' : ℚ) :
    ∃ g c, calibrateClock F (start .useTod) sc mm mhz = .ok g ∧ newClock F g al sc' mm' mhz' = .ok (g, c) ∧
      ∀ calls, (∀ e, .read e ∈ calls → Seen64 e) → ∃ c', program F g c calls = .ok (c', todsOf calls) := by
  have hz : F.rnd 0 = 0 := F.exact ⟨0, 0, by norm_num, by simp⟩
  have hset : ∀ (c : Clk) (s : ℚ), setInterval F ⟨.useTod, true, some 0, none, 0⟩ c s = .ok { c with lastRecal := 0, interval := 0 } := by
    intro c s
    simp only [setInterval, mul_zero, hz, extraMul, zero_mul]
    rw [decide_eq_true (by norm_num), toU64_ok (n := 0) (by simp) (by norm_num)]
    rfl
  refine ⟨⟨.useTod, true, some 0, none, 0⟩, ⟨0, 0, 0, 0⟩, rfl, ?_, ?_⟩
  · simp only [newClock, ensureCalibrated, isCalibrated, decide_true, Bool.or_true, if_true, Res.pure_eq, Res.bind_ok, hset]
  · have : ∀ (calls : List Call), (∀ e, .read e ∈ calls → Seen64 e) →
        program F ⟨.useTod, true, some 0, none, 0⟩ ⟨0, 0, 0, 0⟩ calls = .ok (⟨0, 0, 0, 0⟩, todsOf calls) := by
      intro calls hs
      induction calls with
      | nil => rfl
      | cons a as ih =>
        have ih := ih (fun e he => hs e (by simp [he]))
        cases a with
        | read e =>
          have ht : todcc F ⟨.useTod, true, some 0, none, 0⟩ ⟨0, 0, 0, 0⟩ e = .ok (⟨0, 0, 0, 0⟩, e.tod) := by
            have hr : recalibrate ⟨.useTod, true, some 0, none, 0⟩ ⟨0, 0, 0, 0⟩ e = .ok (⟨0, 0, 0, 0⟩, e.tod) := by
              simp [recalibrate]
            have h64 := (hs e (by simp)).1
            unfold todcc delta
            rw [if_pos (by simp only; omega)]
            exact hr
          simp only [program, ht, ih, Res.bind_ok, Res.pure_eq, todsOf]
        | interval s =>
          simp only [program, hset, Res.bind_ok, todsOf]
          exact ih
    exact fun calls hs => ⟨_, this calls hs⟩

/-- **C79, refuted (1).** With `AUFSO_UseTod` set and `calibrateClock()` not called, `isCalibrated()` says yes and the
constructor converts minus infinity to an integer: undefined behaviour. -/
theorem useTod_uncalibrated (F : Rounding) (al sc : Bool) (mm : Nat) (mhz : ℚ) :
    isCalibrated (start .useTod) = true ∧ newClock F (start .useTod) al sc mm mhz = .ub := by
  have h := rnd_pos F (x := 1 / 1000) (by norm_num)
  refine ⟨rfl, ?_⟩
  simp only [newClock, ensureCalibrated, start, isCalibrated, decide_true, Bool.or_true, if_true, Res.pure_eq, Res.bind_ok, setInterval,
    if_pos h, Res.bind_ub]

/-- A mode that substitutes the time of day when frequency scaling is possible. -/
def Substitutes (m : Mode) : Prop := m = .slow ∨ m = .warnSlow

theorem newClock_slow {F : Rounding} {m : Mode} (hm : Substitutes m) {al : Bool} {mm : Nat} {mhz : ℚ} {g : Globals} {c : Clk}
    (h : newClock F (start m) al true mm mhz = .ok (g, c)) :
    g.mayScale = true ∧ g.mode = m ∧ c.lastCal = 0 ∧ c.lastCc = 0 ∧ c.lastRecal = 0 := by
  have hm1 : m ≠ .useTod ∧ m ≠ .no ∧ m ≠ .yes := by rcases hm with rfl | rfl <;> simp
  have hgood := newClock_good hm1.1 h
  obtain ⟨i, hi, hi0, ⟨r, hr⟩, _⟩ := hgood
  simp only [newClock, Res.bind_eq_ok] at h
  obtain ⟨g1, hg, c1, h2, h3⟩ := h
  rw [ensureCalibrated, if_neg (by simp [isCalibrated, start, hm1.1])] at hg
  simp only [Res.bind_eq_ok] at hg
  obtain ⟨_, _, hg⟩ := hg
  cases h3
  have hc := (interval_fits F hr hi h2).1
  unfold calibrateClock at hg
  rw [if_neg (by simp [start]), if_neg (by simpa [start] using hm1.1)] at hg
  simp only at hg
  rw [if_neg (by simp [start, hm1.2.1])] at hg
  simp only [Res.bind_eq_ok] at hg
  obtain ⟨_, _, _, _, hg⟩ := hg
  cases hg
  rw [hc]
  exact ⟨by simp [scalingAfter, start, hm1.2.2], rfl, rfl, rfl, rfl⟩

theorem recal_slow {g : Globals} (hm : Substitutes g.mode) (hs : g.mayScale = true) (c : Clk) (e : Seen) :
    recalibrate g c e = .ok (c, e.tod) := by
  unfold recalibrate
  rcases hm with h | h <;> simp [h, hs]

/-- **C79, what holds (2).** With `AUFSO_Slow` or `AUFSO_WarnSlow` and frequency scaling possible, every reading is the
system's time of day, as long as the cycle counter is past the recalibration interval. -/
theorem slow_partial (F : Rounding) (m : Mode) (hm : Substitutes m) (al : Bool) (mm : Nat) (mhz : ℚ) (g : Globals) (c : Clk)
    (h : newClock F (start m) al true mm mhz = .ok (g, c)) (es : List Seen) (h64 : ∀ e ∈ es, Seen64 e)
    (hin : ∀ e ∈ es, c.interval < e.cc) : readings F g c es = .ok (c, es.map Seen.tod) := by
  obtain ⟨h1, h2, h3, h4, h5⟩ := newClock_slow hm h
  induction es with
  | nil => rfl
  | cons e es ih =>
    have ht : todcc F g c e = .ok (c, e.tod) := by
      have hd := delta_eq (c := c) (e := e) (by omega) (h64 e (by simp)).1
      unfold todcc
      rw [hd, if_pos (by have := hin e (by simp); omega)]
      exact recal_slow (by rw [h2]; exact hm) h1 c e
    simp only [readings, ht, ih (fun e he => h64 e (by simp [he])) (fun e he => hin e (by simp [he])), Res.bind_ok,
      Res.pure_eq, List.map_cons]

/-- **C79, refuted (2).** While the cycle counter has not passed the interval, such a clock does not ask for the time
of day: it reads less than a quarter of a second after 1970, whatever the time is. -/
theorem slow_bug (F : Rounding) (m : Mode) (hm : Substitutes m) (al : Bool) (mm : Nat) (mhz : ℚ) (g : Globals) (c : Clk)
    (h : newClock F (start m) al true mm mhz = .ok (g, c)) (e : Seen) (h64 : Seen64 e) (h0 : 0 < e.cc)
    (hin : e.cc ≤ c.interval) : ∃ c' v, todcc F g c e = .ok (c', v) ∧ v < 2 ^ 30 := by
  obtain ⟨h1, h2, h3, h4, h5⟩ := newClock_slow hm h
  obtain ⟨i, hi, hi0, _, hg⟩ := newClock_good (by rcases hm with rfl | rfl <;> simp) h
  have hq : Quiet c e := ⟨by omega, by omega⟩
  refine ⟨_, _, quiet_todcc hi hi0 hg h64 hq, ?_⟩
  have hf := hg.fits _ hq.2
  have : ⌊F.rnd (((e.cc - c.lastRecal : Nat) : ℚ) * i)⌋ < 2 ^ 30 := by
    rw [Int.floor_lt]; exact_mod_cast hf
  rw [h3]
  omega

/-- A machine of 1000 MHz on which the clock can be calibrated; the interval is then close to a million cycles. -/
theorem calibrates_1000 (F : Rounding) (m : Mode) (hm : m ≠ .useTod) (hn : m ≠ .no) :
    ∃ g c, newClock F (start m) true true 10 1000 = .ok (g, c) ∧ 999990 ≤ c.interval := by
  have hA : F.rnd (100 * 1000) = 100000 := by
    rw [show (100 * 1000 : ℚ) = 100000 by norm_num]
    exact F.exact (by simpa using isDouble_nat 100000 (by norm_num))
  have near : ∀ x : ℚ, 0 ≤ x → x * (1 - 1 / 2 ^ 53) ≤ F.rnd x ∧ F.rnd x ≤ x * (1 + 1 / 2 ^ 53) := by
    intro x hx
    have := F.err x
    rw [abs_of_nonneg hx, abs_le] at this
    constructor <;> linarith
  have a1 := near (1 / 1000) (by norm_num)
  have a2 := near (F.rnd (1 / 1000) * 1000000) (by linarith)
  have a3 := near (F.rnd (F.rnd (1 / 1000) * 1000000) * 1000) (by linarith)
  have b1 := near (4294967296 / 1000000) (by norm_num)
  have b2 : 0 ≤ F.rnd (1 / 1000) * F.rnd (4294967296 / 1000000) := mul_nonneg (by linarith) (by linarith)
  have b3 := near _ b2
  generalize hp : F.rnd (F.rnd (1 / 1000) * 1000000) = p at *
  generalize hcy : F.rnd (p * 1000) = cy at *
  generalize hu : F.rnd (4294967296 / 1000000) = u at *
  generalize hi : F.rnd (F.rnd (1 / 1000) * u) = i at *
  have hcy1 : 999990 ≤ cy := by linarith
  have hcy2 : cy ≤ 1000001 := by linarith
  have hi2 : i ≤ 5 := by nlinarith
  have hx : 1 ≤ extraMul (some i) ∧ extraMul (some i) ≤ 5 := by
    unfold extraMul; simp only; split <;> constructor <;> linarith
  have c1 := near (cy * extraMul (some i)) (by nlinarith)
  have hlt : F.rnd (cy * extraMul (some i)) < 2 ^ 30 := by nlinarith
  have hcal : calibrateClock F (start m) true 10 1000 =
      .ok ⟨m, true, some 1000, some i, 10⟩ := by
    have hs : scalingAfter (start m) true = true := by unfold scalingAfter start; split <;> rfl
    unfold calibrateClock
    rw [if_neg (by simp [start]), if_neg (by simpa [start] using hm)]
    simp only [hs, hA, hu, hi]
    rw [if_neg (by simp [start, hn]), decide_eq_true (by norm_num), decide_eq_true (by norm_num)]
    rfl
  have hfl : (999990 : ℤ) ≤ ⌊cy⌋ := by rw [Int.le_floor]; exact_mod_cast hcy1
  refine ⟨⟨m, true, some 1000, some i, 10⟩, ⟨0, 0, 0, ⌊cy⌋.toNat⟩, ?_, by show 999990 ≤ ⌊cy⌋.toNat; omega⟩
  have hen : ensureCalibrated F (start m) true true 10 1000 = .ok ⟨m, true, some 1000, some i, 10⟩ := by
    rw [ensureCalibrated, if_neg (by simp [isCalibrated, start, hm]), hcal]; rfl
  simp only [newClock, hen, Res.bind_ok, setInterval, hp, hcy, decide_eq_true hlt, Res.require_true]
  rw [toU64, if_neg (by push Not; exact ⟨by linarith, by linarith⟩)]
  rfl

end Verif.Clock
