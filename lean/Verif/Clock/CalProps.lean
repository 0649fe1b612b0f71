import Verif.Clock.CalLemmas
import Mathlib.Algebra.Order.Ring.Abs
import Mathlib.Tactic.Positivity

/-!
# C215: what the calibration of `Clock` gives
-/

namespace Verif.Clock.Cal

open Verif Verif.Clock.CalSpec

/-! ## The rate -/

/-- A rate that was found is above 200, comes from at least 40 measurements in a row of which at most 128 rounds were thrown away, and stays in every interval that holds three quarters of
them. -/
theorem calibrate_robust (test : List Rat → Bool) (target : Nat) : ∀ (tries : Nat) (rs : List Round) (x : Rat) (ms : List (Option Rat)),
    calibrate test target tries rs = some (.ok (x, ms)) →
    200 < x ∧ 40 ≤ ms.length ∧ Robust ms x ∧
      ∃ pre seg rest, rs = pre ++ seg ++ rest ∧ ms = seg.filterMap (measure target) ∧ seg.countP (fun r => (measure target r).isNone) ≤ 128 := by
  intro tries
  induction tries with
  | zero => intro rs x ms h; simp [calibrate] at h
  | succ tries ih =>
    intro rs x ms h
    unfold calibrate at h
    split at h
    · simp at h
    · next fms rest hf =>
      obtain ⟨seg0, e0, _⟩ := tryLoop_failed test target rs [] 0 fms rest hf
      obtain ⟨h1, h2, h3, pre, seg, rest', e, h4, h5⟩ := ih rest x ms h
      exact ⟨h1, h2, h3, seg0 ++ pre, seg, rest', by rw [e0, e]; simp, h4, h5⟩
    · next y ms' rest hr =>
      obtain ⟨seg, e, h2, h3, h4, h5⟩ := tryLoop_rate test target rs [] 0 y ms' rest hr
      split at h
      · next hy =>
        simp only [Option.some.injEq, Res.ok.injEq, Prod.mk.injEq] at h
        obtain ⟨rfl, rfl⟩ := h
        exact ⟨hy, h3, verdict_robust (by omega) h5, [], seg, rest, by simpa using e, by simpa using h2, by omega⟩
      · simp at h

/-- The program is stopped only for a rate that is too small, or after ten tries with 129 rounds thrown away in each. -/
theorem calibrate_abort (test : List Rat → Bool) (target : Nat) : ∀ (tries : Nat) (rs : List Round),
    calibrate test target tries rs = some .abort →
    129 * tries ≤ rs.countP (fun r => (measure target r).isNone) ∨
      ∃ pre seg rest x, rs = pre ++ seg ++ rest ∧ x ≤ 200 ∧ 40 ≤ (seg.filterMap (measure target)).length ∧ Robust (seg.filterMap (measure target)) x := by
  intro tries
  induction tries with
  | zero => intro rs _; left; omega
  | succ tries ih =>
    intro rs h
    unfold calibrate at h
    split at h
    · simp at h
    · next fms rest hf =>
      obtain ⟨seg0, e0, hc⟩ := tryLoop_failed test target rs [] 0 fms rest hf
      rcases ih rest h with h1 | ⟨pre, seg, rest', x, e, h2⟩
      · left; rw [e0, List.countP_append]; omega
      · right; exact ⟨seg0 ++ pre, seg, rest', x, by rw [e0, e]; simp, h2⟩
    · next y ms' rest hr =>
      obtain ⟨seg, e, h2, h3, h4, h5⟩ := tryLoop_rate test target rs [] 0 y ms' rest hr
      split at h
      · simp at h
      · next hy =>
        simp only [List.nil_append] at h2
        subst h2
        exact .inr ⟨[], seg, rest, y, by simpa using e, by simpa using hy, h3, verdict_robust (by omega) h5⟩

/-- A round in which 2600 cycles pass in about one microsecond. -/
def goodRound : Round := ⟨1000, 50, 1010, [2000, 3600], 4345, 3610⟩

theorem goodRound_measure : measure 2500 goodRound = some (some (2600 / (1000000 * (4295 / 4294967296)))) := by decide +kernel

/-! ### A steady counter -/

theorem sorted_replicate (n : Nat) (x : Rat) : sorted (List.replicate n (some x)) = List.replicate n (some x) :=
  List.eq_replicate_iff.mpr ⟨by rw [(sorted_perm _).length_eq]; simp, fun v hv => List.eq_of_mem_replicate ((sorted_perm _).mem_iff.mp hv)⟩

theorem verdict_steady {rel x : Rat} (hx : 0 < x) (hrel : 0 < rel) (n : Nat) (hn : 2 ≤ n) :
    verdict (exactTest rel) (List.replicate n (some x)) = some x := by
  have hmid : middle (List.replicate n (some x)) = List.replicate (3 * n / 4 - n / 4) (some x) := by
    unfold middle; simp [List.take_replicate, List.drop_replicate]; omega
  have hk : 0 < 3 * n / 4 - n / 4 := by omega
  generalize 3 * n / 4 - n / 4 = k at hmid hk
  have hkq : (k : Rat) ≠ 0 := by exact_mod_cast hk.ne'
  have hmean : ∀ y : Rat, mean (List.replicate k y) = y := by
    intro y; unfold mean; simp [List.sum_replicate]; field_simp
  have hf : (List.replicate k (some x)).filterMap id = List.replicate k x := by
    rw [List.filterMap_replicate]; simp
  unfold verdict
  rw [sorted_replicate, hmid]
  have hpos : 0 < x * rel := mul_pos hx hrel
  simp only [hf]
  simp [exactTest, hmean, hpos, List.map_replicate]

theorem tryLoop_steady {rel x : Rat} (hx : 0 < x) (hrel : 0 < rel) (target : Nat) : ∀ (k : Nat) (rs : List Round), k ≤ 40 → 0 < k → k ≤ rs.length →
    (∀ r ∈ rs, measure target r = some (some x)) →
    ∃ rest, tryLoop (exactTest rel) target (List.replicate (40 - k) (some x)) 0 rs = .rate x (List.replicate 40 (some x)) rest := by
  intro k
  induction k with
  | zero => intro rs _ h; omega
  | succ k ih =>
    intro rs h40 _ hl hr
    cases rs with
    | nil => simp at hl
    | cons r rs =>
      unfold tryLoop
      rw [hr r (by simp)]
      have happ : List.replicate (40 - (k + 1)) (some x) ++ [some x] = List.replicate (40 - k) (some x) := by
        rw [← List.replicate_succ']; congr 1; omega
      simp only [happ, List.length_replicate]
      by_cases hk : k = 0
      · subst hk
        rw [if_pos (by omega), verdict_steady hx hrel _ (by omega)]
        exact ⟨rs, rfl⟩
      · rw [if_neg (by omega)]
        exact ih rs (by omega) (by omega) (by simpa using hl) (fun r hr' => hr r (by simp [hr']))

/-- When every round measures the same rate above 200, 40 rounds are enough and the result is that rate. -/
theorem calibrate_steady {rel x : Rat} (hx : 200 < x) (hrel : 0 < rel) (target : Nat) (rs : List Round) (hl : 40 ≤ rs.length) (hr : ∀ r ∈ rs, measure target r = some (some x)) :
    calibrate (exactTest rel) target 10 rs = some (.ok (x, List.replicate 40 (some x))) := by
  obtain ⟨rest, h⟩ := tryLoop_steady (rel := rel) (x := x) (by linarith) hrel target 40 rs (by omega) (by omega) hl hr
  have h' : tryLoop (exactTest rel) target [] 0 rs = .rate x (List.replicate 40 (some x)) rest := h
  unfold calibrate
  rw [h']
  simp [hx]

/-- The hypotheses can be met: 41 good rounds. -/
example : calibrate (exactTest (1 / 100)) 2500 10 (List.replicate 41 goodRound) = some (.ok (2600 / (1000000 * (4295 / 4294967296)), List.replicate 40 (some (2600 / (1000000 * (4295 / 4294967296)))))) := by
  apply calibrate_steady (by norm_num) (by norm_num) _ _ (by simp)
  intro r hr
  rw [List.eq_of_mem_replicate hr]
  exact goodRound_measure

/-! ### One measurement -/

theorem spin_stop (a stop : Nat) : ∀ (l : List Nat) (c : Nat), spin a stop c l ∈ c :: l := by
  intro l
  induction l with
  | nil => intro c; simp [spin]
  | cons x l ih =>
    intro c
    unfold spin
    split
    · exact List.mem_cons_of_mem _ (ih x)
    · simp

/-- One measurement is close to the rate. `S` and `E` are what the counter would have shown when the time of day was read, `T` is the time between in seconds and `g` is how far the difference of the two
times of day is from it. The error is half of what passed around each reading of the time of day, a cycle for the rounding of the two middles, and what the time of day is wrong by. -/
theorem measure_close (target : Nat) (r : Round) (m R S E T g : Rat) (h : measure target r = some (some m))
    (hs : (r.a : Rat) ≤ S ∧ S ≤ r.b) (he : (spin r.a ((r.a + target) % wrap) r.b r.cs : Rat) ≤ E ∧ E ≤ r.d)
    (hord : r.b ≤ spin r.a ((r.a + target) % wrap) r.b r.cs) (hbig : 2 * r.d < wrap)
    (hR : 0 ≤ R) (hT : E - S = R * 1000000 * T) (htod : r.todStart ≤ r.todEnd) (hend : r.todEnd < wrap)
    (hg : |((r.todEnd : Rat) - r.todStart) / 4294967296 - T| ≤ g) :
    |m - R| * (1000000 * (((r.todEnd : Rat) - r.todStart) / 4294967296)) ≤
      ((r.b : Rat) - r.a) / 2 + ((r.d : Rat) - spin r.a ((r.a + target) % wrap) r.b r.cs) / 2 + 1 + R * 1000000 * g := by
  unfold measure at h
  simp only at h
  generalize hc : spin r.a ((r.a + target) % wrap) r.b r.cs = c at *
  split at h
  · simp at h
  next hgood =>
  split at h
  · simp at h
  next htz =>
  simp only [Option.some.injEq] at h
  have hab : r.a ≤ r.b := by have := le_trans hs.1 hs.2; exact_mod_cast this
  have hcd : c ≤ r.d := by have := le_trans he.1 he.2; exact_mod_cast this
  have e1 : (r.a + r.b) % wrap = r.a + r.b := Nat.mod_eq_of_lt (by omega)
  have e2 : (c + r.d) % wrap = c + r.d := Nat.mod_eq_of_lt (by omega)
  have esub : ∀ x y, y ≤ x → x < wrap → sub64 x y = x - y := by
    intro x y hxy hx
    unfold sub64
    have : x + wrap - y = (x - y) + wrap := by omega
    rw [this, Nat.add_mod_right, Nat.mod_eq_of_lt (by omega)]
  rw [e1, e2, esub _ _ (by omega) (by omega), esub _ _ htod hend] at h
  rw [esub _ _ htod hend] at htz
  have ht : (((r.todEnd - r.todStart : Nat)) : Rat) = (r.todEnd : Rat) - r.todStart := by push_cast [htod]; ring
  rw [ht] at h
  have htpos : (0 : Rat) < (r.todEnd : Rat) - r.todStart := by
    rw [← ht]; exact_mod_cast (Nat.pos_of_ne_zero htz)
  generalize (r.todEnd : Rat) - r.todStart = t at *
  -- the middles
  obtain ⟨s, hs'⟩ : ∃ s, s = (r.a + r.b) / 2 := ⟨_, rfl⟩
  obtain ⟨e, he'⟩ : ∃ e, e = (c + r.d) / 2 := ⟨_, rfl⟩
  rw [← hs', ← he'] at h
  have hse : s ≤ e := by omega
  have hs2 : ((r.a : Rat) + r.b) - 1 ≤ 2 * s ∧ 2 * (s : Rat) ≤ r.a + r.b := by
    constructor
    · have : r.a + r.b ≤ 2 * s + 1 := by omega
      have : ((r.a + r.b : Nat) : Rat) ≤ ((2 * s + 1 : Nat) : Rat) := by exact_mod_cast this
      push_cast at this; linarith
    · have : 2 * s ≤ r.a + r.b := by omega
      exact_mod_cast this
  have he2 : ((c : Rat) + r.d) - 1 ≤ 2 * e ∧ 2 * (e : Rat) ≤ c + r.d := by
    constructor
    · have : c + r.d ≤ 2 * e + 1 := by omega
      have : ((c + r.d : Nat) : Rat) ≤ ((2 * e + 1 : Nat) : Rat) := by exact_mod_cast this
      push_cast at this; linarith
    · have : 2 * e ≤ c + r.d := by omega
      exact_mod_cast this
  have hd : (((e - s : Nat)) : Rat) = (e : Rat) - s := by push_cast [hse]; ring
  have hm : m * (1000000 * (t / 4294967296)) = (e : Rat) - s := by
    rw [← h, hd]; field_simp
  have hpos : (0 : Rat) < 1000000 * (t / 4294967296) := mul_pos (by norm_num) (div_pos htpos (by norm_num))
  rw [← abs_of_pos hpos, ← abs_mul, sub_mul, hm]
  have hg' := abs_le.mp hg
  have k1 : R * 1000000 * (t / 4294967296 - T) ≤ R * 1000000 * g := mul_le_mul_of_nonneg_left hg'.2 (by positivity)
  have k2 : R * 1000000 * (-g) ≤ R * 1000000 * (t / 4294967296 - T) := mul_le_mul_of_nonneg_left hg'.1 (by positivity)
  have hx : R * (1000000 * (t / 4294967296)) = (E - S) + R * 1000000 * (t / 4294967296 - T) := by rw [hT]; ring
  rw [hx]
  rw [abs_le]
  constructor <;> linarith [hs.1, hs.2, he.1, he.2, hs2.1, hs2.2, he2.1, he2.2]

/-- The hypotheses can be met: 2595 cycles passed, and the time of day is right. -/
example : ∃ m R S E T g, measure 2500 goodRound = some (some m) ∧ ((goodRound.a : Rat) ≤ S ∧ S ≤ goodRound.b) ∧ ((3600 : Rat) ≤ E ∧ E ≤ goodRound.d) ∧
    E - S = R * 1000000 * T ∧ |((goodRound.todEnd : Rat) - goodRound.todStart) / 4294967296 - T| ≤ g ∧ g = 0 ∧ R = 2595 * 4294967296 / (4295 * 1000000) := by
  refine ⟨_, 2595 * 4294967296 / (4295 * 1000000), 1007, 3602, 4295 / 4294967296, 0, goodRound_measure, ?_, ?_, ?_, ?_, rfl, rfl⟩ <;> norm_num [goodRound]

/-- From `2^63` cycles on the sum of two counts wraps and the measurement is worthless: here the counter passes `2^63` between the two readings of the time of day, the time of day is right, and the rate comes out a million times too large. -/
theorem measure_wrap_false : ∃ r m, measure 2500 r = some (some m) ∧ r.a < r.b ∧ r.b < 9223372036854775808 ∧ r.cs = [9223372036854775808 + 1300] ∧ r.d = 9223372036854775808 + 1310 ∧
    r.a = 9223372036854775808 - 1300 ∧ 1000000 * 2600 < m := by
  refine ⟨⟨9223372036854775808 - 1300, 50, 9223372036854775808 - 1290, [9223372036854775808 + 1300], 4345, 9223372036854775808 + 1310⟩, 9223372036854778408 / (1000000 * (4295 / 4294967296)), ?_⟩
  decide +kernel

/-! ### It may not end -/

/-- A round in which the time of day did not move. -/
def frozenRound : Round := ⟨1000, 50, 1010, [2000, 3600], 50, 3610⟩

theorem tryLoop_frozen (test : List Rat → Bool) : ∀ n k, tryLoop test 2500 (List.replicate k none) 0 (List.replicate n frozenRound) = .running (List.replicate (k + n) none) := by
  intro n
  induction n with
  | zero => intro k; rfl
  | succ n ih =>
    intro k
    have hm : measure 2500 frozenRound = some none := by decide +kernel
    rw [List.replicate_succ, tryLoop, hm]
    have happ : List.replicate k (none : Option Rat) ++ [none] = List.replicate (k + 1) none := (List.replicate_succ' ..).symm
    simp only [happ, List.length_replicate]
    have : (k + 1) + n = k + (n + 1) := by omega
    split
    · next h40 =>
      have hv : verdict test (List.replicate (k + 1) none) = none := by
        have hs : sorted (List.replicate (k + 1) none) = List.replicate (k + 1) none :=
          List.eq_replicate_iff.mpr ⟨by rw [(sorted_perm _).length_eq]; simp, fun v hv => List.eq_of_mem_replicate ((sorted_perm _).mem_iff.mp hv)⟩
        have hmid : middle (List.replicate (k + 1) (none : Option Rat)) = List.replicate (3 * (k + 1) / 4 - (k + 1) / 4) none := by
          unfold middle; simp [List.take_replicate, List.drop_replicate]; omega
        obtain ⟨j, hj⟩ : ∃ j, 3 * (k + 1) / 4 - (k + 1) / 4 = j + 1 := ⟨3 * (k + 1) / 4 - (k + 1) / 4 - 1, by omega⟩
        unfold verdict
        rw [hs, hmid, hj]
        simp [List.replicate_succ]
      rw [hv, ← this]
      exact ih (k + 1)
    · rw [← this]
      exact ih (k + 1)

/-- "Too many measurements taken, trying again" (at 400) does not try again: the first try can take any number of measurements, and the calibration then does not end. -/
theorem calibrate_ends_false (test : List Rat → Bool) (n : Nat) :
    tryLoop test 2500 [] 0 (List.replicate n frozenRound) = .running (List.replicate n none) ∧ calibrate test 2500 10 (List.replicate n frozenRound) = none := by
  have h := tryLoop_frozen test n 0
  simp only [Nat.zero_add, List.replicate_zero] at h
  refine ⟨h, ?_⟩
  unfold calibrate
  rw [h]

/-! ## The first measurements -/

theorem sorted_at {α : Type} [LinearOrder α] (l : List α) (k : Nat) (x lo hi : α) (h : (l.insertionSort (· ≤ ·))[k]? = some x)
    (hlo : l.countP (fun y => decide (y < lo)) ≤ k) (hhi : l.countP (fun y => decide (hi < y)) + k < l.length) : lo ≤ x ∧ x ≤ hi := by
  have hp : (l.insertionSort (· ≤ ·)).Perm l := List.perm_insertionSort _ _
  have hs : (l.insertionSort (· ≤ ·)).Pairwise (· ≤ ·) := List.pairwise_insertionSort _ _
  generalize l.insertionSort (· ≤ ·) = s at *
  obtain ⟨hk, rfl⟩ := List.getElem?_eq_some_iff.mp h
  constructor
  · have := drop_all (R := (· ≤ ·)) (P := fun y => decide (lo ≤ y)) (fun x y h hx => decide_eq_true (le_trans (of_decide_eq_true hx) h)) s k hs (by
      rw [← hp.countP_eq] at hlo; refine le_trans (le_of_eq ?_) hlo; congr 1; funext y; by_cases h : y < lo <;> simp [h, not_lt.mp, not_le.mpr]) s[k] (by
      rw [List.mem_iff_getElem]; exact ⟨0, by simp; omega, by simp⟩)
    simpa using this
  · have := take_all (R := (· ≤ ·)) (P := fun y => decide (y ≤ hi)) (fun x y h hx => decide_eq_true (le_trans h (of_decide_eq_true hx))) s (l.countP (fun y => decide (hi < y))) (k + 1) hs (by
      rw [hp.countP_eq]; refine le_of_eq ?_; congr 1; funext y; by_cases h : hi < y <;> simp [h, not_lt.mp, not_le.mpr]) (by rw [hp.length_eq]; omega) s[k] (by
      rw [List.mem_iff_getElem]; exact ⟨k, by simp; omega, by simp⟩)
    simpa using this

/-- The longest time a reading of the time of day may take is twice a value that neither a quarter of smaller ones nor three quarters of larger ones can move. -/
theorem maxMeasure_robust (l : List Int) (x lo hi : Int) (h : maxMeasure l = some x) (hlo : 4 * l.countP (fun y => decide (y < lo)) ≤ l.length)
    (hhi : 4 * l.countP (fun y => decide (hi < y)) < 3 * l.length) : 2 * lo ≤ x ∧ x ≤ 2 * hi := by
  unfold maxMeasure at h
  rw [Option.map_eq_some_iff] at h
  obtain ⟨y, hy, rfl⟩ := h
  have := sorted_at l _ y lo hi hy (by omega) (by omega)
  omega

/-- The step of the time of day likewise. -/
theorem quanta_robust (l : List Nat) (x lo hi : Nat) (h : quanta l = some x) (hlo : 4 * l.countP (fun y => decide (y < lo)) ≤ l.length)
    (hhi : 4 * l.countP (fun y => decide (hi < y)) < 3 * l.length) : lo ≤ x ∧ x ≤ hi :=
  sorted_at l _ x lo hi h (by omega) (by omega)

/-- The time of a call is the second smallest of the five. -/
theorem latency_robust (l : List Rat) (x lo hi : Rat) (hl : l.length = 5) (h : latency l = some x) (hlo : l.countP (fun y => decide (y < lo)) ≤ 1)
    (hhi : l.countP (fun y => decide (hi < y)) ≤ 3) : lo ≤ x ∧ x ≤ hi :=
  sorted_at l _ x lo hi h (by omega) (by omega)

/-- None of them reads outside of its list. -/
theorem first_defined : (∀ l, l ≠ [] → (maxMeasure l).isSome) ∧ (∀ l, l ≠ [] → (quanta l).isSome) ∧ (∀ l, l.length = 5 → (latency l).isSome) := by
  refine ⟨?_, ?_, ?_⟩
  · intro l hl
    have : 0 < l.length := List.length_pos_of_ne_nil hl
    simp [maxMeasure]; omega
  · intro l hl
    have : 0 < l.length := List.length_pos_of_ne_nil hl
    simp [quanta]; omega
  · intro l hl; simp [latency]; omega

/-- The hypotheses can be met: of five values one is much too small and one too large. -/
example : maxMeasure [1000, 24, 3, 25, 26] = some 48 ∧ quanta [1000, 24, 3, 25, 26] = some 24 ∧ latency [1000, 24, 3, 25, 26] = some 24 ∧
    4 * [1000, 24, 3, 25, 26].countP (fun y : Int => decide (y < 20)) ≤ 5 ∧ 4 * [1000, 24, 3, 25, 26].countP (fun y : Int => decide (30 < y)) < 3 * 5 := by
  decide +kernel

/-- The cycles per step are between the smallest and the largest of the measurements … -/
theorem cyclesPerQuanta_partial (l : List Nat) (lo hi : Nat) (hl : l.length = 10) (h : ∀ x ∈ l, lo ≤ x ∧ x ≤ hi) : (lo : Rat) ≤ cyclesPerQuanta l ∧ cyclesPerQuanta l ≤ hi := by
  unfold cyclesPerQuanta
  apply mean_between
  · intro hn
    have := middle_length l
    rw [List.map_eq_nil_iff.mp hn, hl] at this
    simp at this
  · intro x hx
    rw [List.mem_map] at hx
    obtain ⟨y, hy, rfl⟩ := hx
    have hy' : y ∈ l := by
      unfold middle at hy
      exact List.mem_of_mem_take (List.mem_of_mem_drop hy)
    have := h y hy'
    exact ⟨by exact_mod_cast this.1, by exact_mod_cast this.2⟩

/-- … but they are not sorted before the middle is taken: one wild measurement among ten moves the result as far as it likes. -/
theorem cyclesPerQuanta_robust_false (B : Nat) : ∃ l, l.length = 10 ∧ l.countP (· = 100) = 9 ∧ (B : Rat) < cyclesPerQuanta l := by
  refine ⟨[100, 100, 100, 100, 101 + 5 * B, 100, 100, 100, 100, 100], rfl, ?_, ?_⟩
  · have : ¬ (101 + 5 * B = 100) := by omega
    simp [this]
  · unfold cyclesPerQuanta middle mean
    simp
    linarith

end Verif.Clock.Cal
