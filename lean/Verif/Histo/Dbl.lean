import Verif.Histo.Perc
import Verif.Clock.Lemmas

/-! # Histograms with doubles -/

namespace Verif.Histo

open Verif Flt

/-- The quotient of whole numbers is cut correctly even after rounding. -/
theorem floor_rnd_nat (R : Rounding) {d k : Nat} (hk : 0 < k) (hd : d < 2 ^ 53) : ⌊R.rnd ((d : Rat) / k)⌋ = ((d / k : Nat) : Int) := by
  have hkq : (0 : Rat) < k := by exact_mod_cast hk
  have h1 : (d / k) * k ≤ d := Nat.div_mul_le_self d k
  have h2 : d + 1 ≤ (d / k + 1) * k := by
    have := Nat.lt_div_mul_add (a := d) hk
    rw [Nat.add_mul]; omega
  have hm : d / k < 2 ^ 53 := lt_of_le_of_lt (Nat.div_le_self d k) hd
  generalize d / k = m at *
  have h1q : (m : Rat) * k ≤ d := by exact_mod_cast h1
  have h2q : (d : Rat) + 1 ≤ (m + 1) * k := by exact_mod_cast h2
  have hdq : (d : Rat) < 2 ^ 53 := by exact_mod_cast hd
  have hmd : IsDouble (((m : Int) : Rat)) := isDouble_int m (by rw [abs_of_nonneg (by omega)]; omega)
  rw [Int.floor_eq_iff]
  refine ⟨R.ge_of_double hmd (by push_cast; rw [le_div_iff₀ hkq]; exact h1q), ?_⟩
  have he := R.err ((d : Rat) / k)
  have hx0 : (0 : Rat) ≤ (d : Rat) / k := div_nonneg (by exact_mod_cast Nat.zero_le _) (le_of_lt hkq)
  rw [abs_of_nonneg hx0] at he
  have he' := (abs_le.1 he).2
  have hlt : (d : Rat) / k / 2 ^ 53 < 1 / k := by
    rw [div_div, mul_comm, ← div_div]
    apply div_lt_div_of_pos_right _ hkq
    rw [div_lt_one (by norm_num)]; exact hdq
  have hx : (d : Rat) / k ≤ m + 1 - 1 / k := by
    rw [div_le_iff₀ hkq, sub_mul, div_mul_cancel₀ _ (ne_of_gt hkq)]
    linarith
  push_cast
  linarith

/-- Where a value falls, in doubles: `w` is the width. -/
theorem cell_double (R : Rounding) {n : Nat} (hn0 : 0 < n) (hn : n < 2 ^ 31) {low high v : Rat} (hl : low < v) (hv : v < high) :
    let w := R.rnd (R.rnd (high - low) / R.rnd n)
    0 < w ∧ ∃ i, cell R.rnd w (R.rnd (v - low)) = .ok i ∧ i ≤ n ∧ low + (i - n / 2 ^ 51) * w ≤ v ∧ v < low + (i + 1 + n / 2 ^ 51) * w ∧ (v < low + (n - n / 2 ^ 51) * w → i < n) := by
  intro w
  have hnq : (0 : Rat) < n := by exact_mod_cast hn0
  have hnq2 : (n : Rat) < 2 ^ 31 := by exact_mod_cast hn
  have hrn : R.rnd (n : Rat) = n := R.exact (by
    have := isDouble_int (n : Int) (by rw [abs_of_nonneg (by omega)]; omega)
    exact_mod_cast this)
  have u : (0 : Rat) < 1 / 2 ^ 53 := by norm_num
  -- the range
  have e1 := R.err (high - low)
  rw [abs_of_pos (show 0 < high - low by linarith)] at e1
  obtain ⟨e1a, e1b⟩ := abs_le.1 e1
  set D := R.rnd (high - low) with hD
  have hDpos : (high - low) * (1 - 1 / 2 ^ 53) ≤ D := by linarith
  have hD0 : 0 < D := lt_of_lt_of_le (mul_pos (by linarith) (by norm_num)) hDpos
  have e2 := R.err (D / R.rnd n)
  rw [hrn] at e2
  have hwdef : w = R.rnd (D / n) := by show R.rnd (R.rnd (high - low) / R.rnd n) = _; rw [hrn]
  rw [abs_of_pos (div_pos hD0 hnq), ← hwdef] at e2
  obtain ⟨e2a, e2b⟩ := abs_le.1 e2
  have hw1 : D / n * (1 - 1 / 2 ^ 53) ≤ w := by linarith
  have hw0 : 0 < w := lt_of_lt_of_le (mul_pos (div_pos hD0 hnq) (by norm_num)) hw1
  have hnw : D * (1 - 1 / 2 ^ 53) ≤ n * w := by
    have := mul_le_mul_of_nonneg_left hw1 (le_of_lt hnq)
    have e : (n : Rat) * (D / n * (1 - 1 / 2 ^ 53)) = D * (1 - 1 / 2 ^ 53) := by field_simp
    linarith
  -- the distance
  have e3 := R.err (v - low)
  rw [abs_of_pos (show 0 < v - low by linarith)] at e3
  obtain ⟨e3a, e3b⟩ := abs_le.1 e3
  set d := R.rnd (v - low) with hd
  have hd0 : 0 ≤ d := by
    have : (v - low) * (1 - 1 / 2 ^ 53) ≤ d := by linarith
    exact le_trans (le_of_lt (mul_pos (by linarith) (by norm_num))) this
  have e4 := R.err (d / w)
  have hdw : 0 ≤ d / w := div_nonneg hd0 (le_of_lt hw0)
  rw [abs_of_nonneg hdw] at e4
  obtain ⟨e4a, e4b⟩ := abs_le.1 e4
  set q := R.rnd (d / w) with hq
  have hq0 : 0 ≤ q := by
    have : d / w * (1 - 1 / 2 ^ 53) ≤ q := by linarith
    exact le_trans (mul_nonneg hdw (by norm_num)) this
  -- the exact quotient
  have hX : (v - low) * (1 - 1 / 2 ^ 53) * (1 - 1 / 2 ^ 53) ≤ n * w := by nlinarith
  have hqw : q * w ≤ (v - low) * ((1 + 1 / 2 ^ 53) * (1 + 1 / 2 ^ 53)) := by
    have h1 : q ≤ d / w * (1 + 1 / 2 ^ 53) := by linarith
    have h2 := mul_le_mul_of_nonneg_right h1 (le_of_lt hw0)
    have h3 : d / w * (1 + 1 / 2 ^ 53) * w = d * (1 + 1 / 2 ^ 53) := by field_simp
    have h4 : d ≤ (v - low) * (1 + 1 / 2 ^ 53) := by linarith
    have h5 := mul_le_mul_of_nonneg_right h4 (show (0 : Rat) ≤ 1 + 1 / 2 ^ 53 by norm_num)
    linarith
  have hqw' : (v - low) * ((1 - 1 / 2 ^ 53) * (1 - 1 / 2 ^ 53)) ≤ q * w := by
    have h1 : d / w * (1 - 1 / 2 ^ 53) ≤ q := by linarith
    have h2 := mul_le_mul_of_nonneg_right h1 (le_of_lt hw0)
    have h3 : d / w * (1 - 1 / 2 ^ 53) * w = d * (1 - 1 / 2 ^ 53) := by field_simp
    have h4 : (v - low) * (1 - 1 / 2 ^ 53) ≤ d := by linarith
    have h5 := mul_le_mul_of_nonneg_right h4 (show (0 : Rat) ≤ 1 - 1 / 2 ^ 53 by norm_num)
    linarith
  have hvl : 0 < v - low := by linarith
  have hup : q * w ≤ (v - low) + n / 2 ^ 51 * w := by
    have : (v - low) * ((1 + 1 / 2 ^ 53) * (1 + 1 / 2 ^ 53) - 1) ≤ (v - low) * (1 - 1 / 2 ^ 53) * (1 - 1 / 2 ^ 53) * (1 / 2 ^ 51) := by
      rw [mul_assoc, mul_assoc]
      apply mul_le_mul_of_nonneg_left _ (le_of_lt hvl)
      norm_num
    have h2 := mul_le_mul_of_nonneg_right hX (show (0 : Rat) ≤ 1 / 2 ^ 51 by norm_num)
    have e : (n : Rat) / 2 ^ 51 * w = n * w * (1 / 2 ^ 51) := by ring
    rw [e]
    linarith
  have hdn : (v - low) - n / 2 ^ 51 * w ≤ q * w := by
    have : (v - low) * (1 - (1 - 1 / 2 ^ 53) * (1 - 1 / 2 ^ 53)) ≤ (v - low) * (1 - 1 / 2 ^ 53) * (1 - 1 / 2 ^ 53) * (1 / 2 ^ 51) := by
      rw [mul_assoc, mul_assoc]
      apply mul_le_mul_of_nonneg_left _ (le_of_lt hvl)
      norm_num
    have h2 := mul_le_mul_of_nonneg_right hX (show (0 : Rat) ≤ 1 / 2 ^ 51 by norm_num)
    have e : (n : Rat) / 2 ^ 51 * w = n * w * (1 / 2 ^ 51) := by ring
    rw [e]
    linarith
  have hqn : q < n + 1 := by
    have h1 : q * w ≤ n * (1 + 1 / 2 ^ 50) * w := by
      have : (v - low) * ((1 + 1 / 2 ^ 53) * (1 + 1 / 2 ^ 53)) ≤ (v - low) * (1 - 1 / 2 ^ 53) * (1 - 1 / 2 ^ 53) * (1 + 1 / 2 ^ 50) := by
        rw [mul_assoc, mul_assoc]
        apply mul_le_mul_of_nonneg_left _ (le_of_lt hvl)
        norm_num
      have h2 := mul_le_mul_of_nonneg_right hX (show (0 : Rat) ≤ 1 + 1 / 2 ^ 50 by norm_num)
      have e : (n : Rat) * (1 + 1 / 2 ^ 50) * w = n * w * (1 + 1 / 2 ^ 50) := by ring
      rw [e]
      linarith
    have := le_of_mul_le_mul_right h1 hw0
    have h3 : (n : Rat) / 2 ^ 50 < 1 := by rw [div_lt_one (by norm_num)]; linarith
    have e : (n : Rat) * (1 + 1 / 2 ^ 50) = n + n / 2 ^ 50 := by ring
    linarith
  have hf0 : 0 ≤ ⌊q⌋ := Int.floor_nonneg.2 hq0
  obtain ⟨i, hi⟩ := Int.eq_ofNat_of_zero_le hf0
  have hiq := Int.floor_le q
  have hiq' := Int.lt_floor_add_one q
  rw [hi] at hiq hiq'
  push_cast at hiq hiq'
  refine ⟨hw0, i, ?_, ?_, ?_, ?_, ?_⟩
  · unfold cell
    rw [if_neg (ne_of_gt hw0)]
    have := toU32_floor hq0 (by linarith)
    rw [hi] at this
    show Clock.toU32 ((⌊q⌋ : Int) : Rat) = _
    rw [hi]
    exact this
  · have : (i : Rat) < ((n + 1 : Nat) : Rat) := by push_cast; linarith
    have : i < n + 1 := by exact_mod_cast this
    omega
  · nlinarith
  · nlinarith
  · intro hvv
    have h1 : q * w < n * w := by linarith
    have h2 := lt_of_mul_lt_mul_right h1 (le_of_lt hw0)
    have : (i : Rat) < n := by linarith
    exact_mod_cast this

/-! ## Whole numbers -/

/-- A fixed histogram over whole numbers with a whole width. -/
structure IntFixed (h : H) (vs : List Rat) (l : Int) (k m : Nat) : Prop where
  scal : h.scal = false
  grow : h.grow = false
  n : h.n = m
  low : h.low = l
  high : h.high = ((l + m * k : Int) : Rat)
  width : h.width = k
  bins : h.bins = tally m (vs.map fun v => (key l k m v, 1))
  number : h.st.number = vs.length

theorem intFixed_bin (R : Rounding) {h : H} {vs : List Rat} {low : Int} {k n : Nat} (hI : IntFixed h vs low k n) (hk : 0 < k) (hn0 : 0 < n) (hn : n < 2 ^ 32) (hb : n * k ≤ 2 ^ 53) (m : Int) :
    sampleBin R.rnd h m = .ok (key low k n m) := by
  have hkq : (0 : Rat) < k := by exact_mod_cast hk
  unfold sampleBin
  rw [hI.low, hI.high, hI.n]
  split
  · rename_i hv
    congr 1
    symm
    rw [key_iff hkq hn0]
    unfold inBin
    rw [decide_eq_true_eq]
    refine ⟨Or.inl rfl, Or.inr ?_⟩
    push_cast
    linarith
  · rename_i hv
    split
    · rename_i hv2
      congr 1
      symm
      rw [key_iff hkq (by omega)]
      unfold inBin
      rw [decide_eq_true_eq]
      refine ⟨Or.inr ?_, Or.inl (by omega)⟩
      push_cast [Nat.cast_sub (show 1 ≤ n from hn0)] at hv2 ⊢
      nlinarith
    · rename_i hv2
      have h1 : low < m := by exact_mod_cast not_le.1 hv
      have h2 : m < low + n * k := by exact_mod_cast not_le.1 hv2
      obtain ⟨d, hd⟩ := Int.eq_ofNat_of_zero_le (show 0 ≤ m - low by omega)
      have hdlt : d < n * k := by
        have : (d : Int) < ((n * k : Nat) : Int) := by push_cast; omega
        exact_mod_cast this
      have e : R.rnd ((m : Rat) - low) = (d : Rat) := by
        have e0 : ((m : Rat) - low) = ((d : Int) : Rat) := by rw [show ((d : Int)) = m - low from hd.symm]; push_cast; ring
        rw [e0, R.exact (isDouble_int _ (by rw [abs_of_nonneg (by omega)]; omega))]
        push_cast; rfl
      rw [e]
      unfold cell
      rw [if_neg (by rw [hI.width]; exact ne_of_gt hkq), hI.width, floor_rnd_nat R hk (by omega)]
      have hq : d / k < n := Nat.div_lt_of_lt_mul (by rw [Nat.mul_comm]; exact hdlt)
      have := toU32_floor (x := ((d / k : Nat) : Rat)) (by exact_mod_cast Nat.zero_le _) (by
        have : d / k < 2 ^ 32 := by omega
        exact_mod_cast this)
      rw [Int.floor_natCast, Int.toNat_natCast] at this
      rw [this]
      congr 1
      unfold key
      have e2 : ((m : Rat) - low) / k = (d : Rat) / k := by
        congr 1
        have : ((m - low : Int) : Rat) = ((d : Int) : Rat) := by rw [hd]
        push_cast at this; exact this
      rw [e2, Clock.floor_div_nat d k (d / k) hk (Nat.div_mul_le_self d k) (by
        have := Nat.lt_div_mul_add (a := d) hk
        rw [Nat.add_mul]; omega)]
      rw [Int.toNat_natCast]
      generalize d / k = q at hq ⊢
      omega

theorem intFixed_add (R : Rounding) {h : H} {vs : List Rat} {low : Int} {k n : Nat} (hI : IntFixed h vs low k n) (hk : 0 < k) (hn0 : 0 < n) (hn : n < 2 ^ 32) (hb : n * k ≤ 2 ^ 53) (m : Int) :
    ∃ h', add R.rnd h m = .ok h' ∧ IntFixed h' (vs ++ [(m : Rat)]) low k n := by
  have hkl := key_lt (low := (low : Rat)) (w := k) hn0 (m : Rat)
  have hl : h.bins.length = n := by rw [hI.bins]; simp
  refine ⟨{ h with st := Stats.add R.rnd h.st m, bins := h.bins.set (key low k n m) (PQ.g 0 h.bins (key low k n m) + 1) }, ?_, ?_⟩
  · unfold add
    have g1 : addGrow R.rnd { h with st := Stats.add R.rnd h.st m } m = .ok { h with st := Stats.add R.rnd h.st m } := by
      unfold addGrow
      rw [if_neg (by rw [show ({ h with st := Stats.add R.rnd h.st m } : H).grow = h.grow from rfl, hI.grow]; simp)]
    have g2 : addScale R.rnd { h with st := Stats.add R.rnd h.st m } m = .ok { h with st := Stats.add R.rnd h.st m } := by
      unfold addScale
      rw [if_neg (by rw [show ({ h with st := Stats.add R.rnd h.st m } : H).scal = h.scal from rfl, hI.scal]; simp)]
    rw [g1, Res.bind_ok, g2, Res.bind_ok]
    have hs : sampleBin R.rnd { h with st := Stats.add R.rnd h.st m } m = .ok (key low k n m) := intFixed_bin R hI hk hn0 hn hb m
    rw [hs, Res.bind_ok]
    show (PQ.rd h.bins _ >>= _) = _
    rw [PQ.rd_eq 0 _ _ (by omega), Res.bind_ok, PQ.wr_eq _ _ _ (by show _ < h.bins.length; omega), Res.bind_ok]
    rfl
  · refine ⟨hI.scal, hI.grow, hI.n, hI.low, hI.high, hI.width, ?_, ?_⟩
    · show h.bins.set _ _ = _
      refine eq_tally (by simpa using hl) fun i hi => ?_
      rw [get_set _ _ _ _ (by omega), List.map_append, at_append]
      simp only [List.map_cons, List.map_nil, at_cons, at_nil, add_zero]
      show (if _ then _ else _) = some (_ + if key low k n m = i then 1 else 0)
      have hb : h.bins[i]? = some (at' i (vs.map fun v => (key low k n v, 1))) := by rw [hI.bins]; exact tally_get _ hi
      split
      · rename_i hki
        rw [hki]
        unfold PQ.g
        rw [List.getD_eq_getElem?_getD, hb]; rfl
      · rw [hb]; rfl
    · show h.st.number + 1 = _
      rw [hI.number]; simp

theorem intFixed_width (R : Rounding) {low : Int} {k n : Nat} (hn0 : 0 < n) (hb : n * k ≤ 2 ^ 53) (hk : 0 < k) :
    R.rnd (R.rnd (((low + n * k : Int) : Rat) - (low : Rat)) / R.rnd (n : Rat)) = k := by
  have hn : n ≤ 2 ^ 53 := le_trans (Nat.le_mul_of_pos_right n hk) hb
  have hk' : k ≤ 2 ^ 53 := le_trans (Nat.le_mul_of_pos_left k hn0) hb
  have e1 : (((low + n * k : Int) : Rat) - (low : Rat)) = (((n * k : Nat) : Int) : Rat) := by push_cast; ring
  have e2 : (n : Rat) = ((n : Int) : Rat) := by push_cast; rfl
  have hnz : (n : Rat) ≠ 0 := by
    have : (0 : Rat) < n := by exact_mod_cast hn0
    exact ne_of_gt this
  rw [e1, R.exact (isDouble_int _ (by rw [abs_of_nonneg (by omega)]; omega)), e2, R.exact (isDouble_int _ (by rw [abs_of_nonneg (by omega)]; omega))]
  have e3 : (((n * k : Nat) : Int) : Rat) / ((n : Int) : Rat) = ((k : Int) : Rat) := by
    push_cast; field_simp
  rw [e3, R.exact (isDouble_int _ (by rw [abs_of_nonneg (by omega)]; omega))]
  push_cast; rfl

theorem intFixed_run (R : Rounding) {low : Int} {k n : Nat} (hk : 0 < k) (hn0 : 0 < n) (hn : n < 2 ^ 32) (hb : n * k ≤ 2 ^ 53) {h0 : H} (hI : IntFixed h0 [] low k n) :
    ∀ ops : List Op, (∀ v, Op.add v ∈ ops → ∃ m : Int, v = m) → ∃ h, run R.rnd h0 ops = .ok h ∧ IntFixed h (vals ops) low k n := by
  intro ops
  induction ops using List.reverseRecOn with
  | nil => intro _; exact ⟨h0, rfl, hI⟩
  | append_singleton ops o ih =>
    intro hf
    obtain ⟨h, e, hI1⟩ := ih fun v hv => hf v (by simp [hv])
    rw [run_snoc, e, Res.bind_ok, vals_snoc]
    cases o with
    | reset =>
      refine ⟨_, rfl, hI1.scal, hI1.grow, hI1.n, hI1.low, hI1.high, ?_, ?_, rfl⟩
      · show R.rnd (R.rnd (h.high - h.low) / R.rnd h.n) = k
        rw [hI1.high, hI1.low, hI1.n]
        exact intFixed_width R hn0 hb hk
      · show List.replicate h.n 0 = _
        rw [hI1.n]; exact (tally_nil _).symm
    | add v =>
      obtain ⟨m, rfl⟩ := hf v (by simp)
      exact intFixed_add R hI1 hk hn0 hn hb m

end Verif.Histo
