import Verif.LogHisto.Lemmas2
import Mathlib.Analysis.SpecialFunctions.Log.Deriv

/-!
# Properties of logarithmic histograms

C105 (counts), C106 (percentiles and modes), C107 (sums).
-/

namespace Verif.LogHisto

open Verif Histo

/-! ## C105 -/

/-- C105. In exact arithmetic no call on a logarithmic histogram goes wrong, bin `i` counts the values between its edges (with everything beyond in the end bins of a histogram that
does not scale), the edges divide the range into `n` parts of equal ratio, and the counts sum up to the number of values. The range of a scalable histogram only ever grows, includes all
its values and stays as it was if it always did. A histogram that does not scale must not meet values 2^32 bins away (`Near`), see `log_narrow_false`. -/
theorem log_counts_partial {b : Nat} (hb : 0 < b) (hb' : b < 2 ^ 32 - 1) {small high : ℝ} (hs : 0 < small) (hh : small < high) {scal : Bool} {h0 : L}
    (h0e : new exact b small high scal = .ok h0) (ops : List Op) (hl : ∀ o ∈ ops, Legal o)
    (hnear : scal = false → ∀ o ∈ ops, ∀ v ∈ given o, Near small high (2 * ((b + 1) / 2)) v) :
    ∃ h, Runs exact h0 ops h ∧ h.n = 2 * ((b + 1) / 2) ∧ h.bins.length = h.n ∧
      (∀ i, i < h.n → h.bins[i]? = some (countIn h.small h.high h.n i (vals ops))) ∧
      h.bins.sum = (vals ops).length ∧ h.count = (vals ops).length ∧
      (∀ i, i < h.n → binlow exact h i = edge h.small h.high h.n i ∧ binhigh exact h i = edge h.small h.high h.n (i + 1)) ∧
      0 < h.small ∧ h.small ≤ small ∧ high ≤ h.high ∧
      (scal = true → ∀ v ∈ vals ops, h.small ≤ v ∧ v < h.high) ∧
      (scal = false ∨ (∀ o ∈ ops, ∀ v ∈ given o, small ≤ v ∧ v < high) → h.small = small ∧ h.high = high) := by
  obtain ⟨h0', e0, hI0, n0, s0, g0, c0⟩ := new_ok hb hb' hs hh scal
  rw [h0e] at e0
  cases e0
  obtain ⟨m0, h, e, hI, hR⟩ := run_ok hI0 (by rw [n0]; omega) ops hl (by rw [s0, g0, n0, c0]; exact hnear)
  have hlen : h.bins.length = h.n := by rw [hI.bins]; simp
  refine ⟨h, ⟨m0, e⟩, hR.n.trans n0, hlen, fun i hi => ?_, hI.toCore.total, hI.count, fun i hi => ?_, hI.sm, by rw [← s0]; exact hR.small, by rw [← g0]; exact hR.high,
    fun hsc => hI.inside (by rw [hR.scal, c0]; exact hsc), fun hq => ?_⟩
  · rw [hI.bins, tally_get _ hi, at_count]
    congr 1
    apply List.countP_congr
    intro v _
    classical
    rw [decide_eq_true_iff, decide_eq_true_iff]
    exact key_iff hI.sm hI.hi hI.sc hI.span hi v
  · have hlt : i + 1 < 2 ^ 32 := by
      have := hR.n.trans n0
      omega
    rw [edge_eq hI.sm hI.hi hI.n hI.sc hI.span, edge_eq hI.sm hI.hi hI.n hI.sc hI.span]
    refine ⟨rfl, ?_⟩
    unfold binhigh
    rw [Nat.mod_eq_of_lt hlt]
    rfl
  · have := hR.same (by rw [s0, g0, c0]; exact hq)
    rw [this.1, this.2]
    exact ⟨s0, g0⟩

/-- The hypotheses of `log_counts_partial`: a histogram that scales both ways, and is reset between. -/
example : ∃ h0, new exact 3 1 16 true = .ok h0 ∧ ∀ o ∈ [Op.add 2, .add (1 / 100), .add2 1000 1000, .reset, .add 3], Legal o := by
  obtain ⟨h0, e, -⟩ := new_ok (b := 3) (by norm_num) (by norm_num) (small := 1) (high := 16) (by norm_num) (by norm_num) true
  refine ⟨h0, e, fun o ho => ?_⟩
  simp only [List.mem_cons, List.not_mem_nil, or_false] at ho
  rcases ho with rfl | rfl | rfl | rfl | rfl <;> simp [Legal]

/-- The edges of four bins from 1 to 16 are 1, 2, 4, 8 and 16, so that 3 belongs in the second bin. -/
theorem edge_sample (i : Nat) : edge 1 16 4 i = 2 ^ i := by
  unfold edge
  rw [show (16 : ℝ) / 1 = 2 ^ (4 : ℝ) by norm_num, ← Real.rpow_mul (by norm_num), one_mul, show (4 : ℝ) * ((i : ℝ) / ((4 : Nat) : ℝ)) = i by push_cast; ring, Real.rpow_natCast]

example : inBin 1 16 4 1 3 ∧ ¬inBin 1 16 4 2 3 ∧ inBin 1 16 4 0 (1 / 7) ∧ inBin 1 16 4 3 1000 := by
  unfold inBin
  simp only [edge_sample]
  norm_num

/-- C105. Values that are not positive, and pairs that differ, are refused. -/
theorem log_illegal {A : Ar} (m : Nat) (h : L) (o : Op) (ho : ¬Legal o) : step A m h o = .abort := by
  cases o with
  | add v =>
    show add A m h v = _
    unfold add
    rw [decide_eq_false (show ¬0 < v from ho)]
    rfl
  | add2 i d =>
    show add2 A m h i d = _
    unfold add2
    by_cases hid : i = d
    · rw [decide_eq_true hid, Res.require_true, Res.bind_ok]
      unfold add
      rw [decide_eq_false (fun hi => ho ⟨hi, hid⟩)]
      rfl
    · rw [decide_eq_false hid]
      rfl
  | reset => exact absurd trivial ho

/-- The hypothesis of `log_illegal`. -/
example : ¬Legal (.add 0) ∧ ¬Legal (.add2 1 2) := by simp [Legal]

/-- C105. Whatever the machine makes of the logarithms, the exponentials and the quotients: if calls on a histogram return, it has counted each value once, in one of its bins. -/
theorem log_total_any (A : Ar) {b : Nat} (hb' : b < 2 ^ 32 - 1) {small high : ℝ} {scal : Bool} {h0 h : L} (h0e : new A b small high scal = .ok h0) {m : Nat} (ops : List Op)
    (he : run A m h0 ops = .ok h) : h.n = 2 * ((b + 1) / 2) ∧ h.bins.length = h.n ∧ h.bins.sum = (vals ops).length ∧ h.count = (vals ops).length := by
  obtain ⟨hT, hc, hn⟩ := new_tot hb' h0e
  obtain ⟨a1, a2, a3⟩ := run_tot hT hc ops h he
  exact ⟨a3.trans hn, a1.len, a1.sum, a2⟩

/-- The hypotheses of `log_total_any`, with a logarithm that is always 1: 5 is counted in the last bin. -/
example : ∃ h0 h, new ⟨id, fun _ => 1, Real.exp⟩ 2 1 4 false = .ok h0 ∧ run ⟨id, fun _ => 1, Real.exp⟩ 0 h0 [.add 5] = .ok h ∧ h.bins = [0, 1] := by
  refine ⟨⟨false, 2, 1, 4, 2, [0, 0], 0, 0⟩, ⟨false, 2, 1, 4, 2, [0, 1], 0, 1⟩, ?_, ?_, rfl⟩
  · unfold new
    norm_num [reset]
    rfl
  · show (add _ _ _ _ >>= fun h => Res.ok h) = _
    unfold add addScale bump sampleBin toU32
    norm_num
    rfl

/-- C105. A histogram that does not scale is wrong for values far beyond its range: with bounds 1 and 1 + 2^-40 the bin of 2 is not in 32 bits, and the conversion is undefined. -/
theorem log_narrow_false : ∃ h0, new exact 2 1 (1 + 1 / 2 ^ 40) false = .ok h0 ∧ Legal (.add 2) ∧ ∀ m, add exact m h0 2 = .ub := by
  obtain ⟨h0, e, hI, n0, s0, g0, c0⟩ := new_ok (b := 2) (by norm_num) (by norm_num) (small := 1) (high := 1 + 1 / 2 ^ 40) (by norm_num) (by norm_num) false
  refine ⟨h0, e, by show (0 : ℝ) < 2; norm_num, fun m => ?_⟩
  unfold add addScale bump sampleBin
  rw [decide_eq_true (by norm_num : (0 : ℝ) < 2), Res.require_true, Res.bind_ok, if_neg (by rw [show ({ h0 with count := h0.count + 1 } : L).scal = h0.scal from rfl, c0]; simp), Res.bind_ok]
  rw [if_neg (by show ¬(2 : ℝ) ≤ h0.small; rw [s0]; norm_num)]
  have hsp := hI.span
  have hsc := hI.sc
  rw [n0, g0, s0] at hsp
  have hlog : Real.log ((1 + 1 / 2 ^ 40) / 1) ≤ 1 / 2 ^ 40 := by
    have := Real.log_le_sub_one_of_pos (x := 1 + 1 / 2 ^ 40) (by norm_num)
    rw [div_one]
    linarith
  have h2 : (1 : ℝ) / 2 ≤ Real.log 2 := by
    have := Real.one_sub_inv_le_log_of_pos (x := 2) (by norm_num)
    linarith
  rw [← hsp, div_le_div_iff₀ hsc (by norm_num)] at hlog
  have hbig : (2 : ℝ) ^ 32 ≤ h0.scaling * Real.log (2 / h0.small) := by
    rw [s0, div_one]
    push_cast at hlog
    norm_num at hlog ⊢
    nlinarith
  have : toU32 (exact.r (h0.scaling * exact.lg (exact.r (2 / h0.small)))) = .ub := by
    unfold toU32
    rw [if_neg]
    rintro ⟨-, hf⟩
    rw [Int.floor_lt] at hf
    have hf' : h0.scaling * Real.log (2 / h0.small) < 2 ^ 32 := by exact_mod_cast hf
    linarith
  show ((toU32 (exact.r (h0.scaling * exact.lg (exact.r (2 / h0.small)))) >>= _) >>= _) >>= _ = _
  rw [this]
  rfl

/-- C105. `numRescales` and `isScalable` of a logarithmic histogram do not tell: of a scalable histogram that has doubled its range they are 0 and false. -/
theorem log_rescales_false : ∃ h0 h, new exact 2 1 4 true = .ok h0 ∧ Runs exact h0 [.add 5] h ∧ h0.high < h.high ∧ numRescales h = 0 ∧ isScalable h = false := by
  obtain ⟨h0, e, hI, n0, s0, g0, c0⟩ := new_ok (b := 2) (by norm_num) (by norm_num) (small := 1) (high := 4) (by norm_num) (by norm_num) true
  obtain ⟨h, hr, -, -, -, -, -, -, -, -, -, hin, -⟩ := log_counts_partial (by norm_num) (by norm_num) (by norm_num) (by norm_num) e [.add 5] (by
    intro o ho
    rw [List.mem_singleton.1 ho]
    show (0 : ℝ) < 5
    norm_num) (fun h => by cases h)
  refine ⟨h0, h, e, hr, ?_, rfl, rfl⟩
  rw [g0]
  have := (hin rfl 5 (by show (5 : ℝ) ∈ [5]; simp)).2
  linarith

/-! ## C106 -/

theorem Runs.unique {A : Ar} {h0 h h' : L} {ops : List Op} (a : Runs A h0 ops h) (b : Runs A h0 ops h') : h = h' := by
  obtain ⟨m, a⟩ := a
  obtain ⟨m', b⟩ := b
  have := (a (max m m') (le_max_left _ _)).symm.trans (b (max m m') (le_max_right _ _))
  cases this
  rfl

theorem runs_inv {b : Nat} (hb : 0 < b) (hb' : b < 2 ^ 32 - 1) {small high : ℝ} (hs : 0 < small) (hh : small < high) {scal : Bool} {h0 : L}
    (h0e : new exact b small high scal = .ok h0) {ops : List Op} (hl : ∀ o ∈ ops, Legal o)
    (hnear : scal = false → ∀ o ∈ ops, ∀ v ∈ given o, Near small high (2 * ((b + 1) / 2)) v) {h : L} (hr : Runs exact h0 ops h) : Inv h (vals ops) ∧ h.n < 2 ^ 32 := by
  obtain ⟨h0', e0, hI0, n0, s0, g0, c0⟩ := new_ok hb hb' hs hh scal
  rw [h0e] at e0
  cases e0
  obtain ⟨m0, h', e, hI, hR⟩ := run_ok hI0 (by rw [n0]; omega) ops hl (by rw [s0, g0, n0, c0]; exact hnear)
  have := Runs.unique hr ⟨m0, e⟩
  subst this
  exact ⟨hI, by rw [hR.n, n0]; omega⟩

/-- Position within a bin. -/
theorem At.bounds {h : L} {vs : List ℝ} (hI : Inv h vs) {T : ℝ} {bin c d : Nat} {x : ℝ} (hA : At h vs T bin c d x) :
    edge h.small h.high h.n bin < x ∧ x ≤ edge h.small h.high h.n (bin + 1) := by
  have h1 := hA.low
  have h2 := hA.high
  have hcd : (0 : ℝ) < d - c := by linarith
  have f0 : 0 < (T - c) / (d - c) := div_pos (by linarith) hcd
  have f1 : (T - c) / (d - c) ≤ 1 := by rw [div_le_one hcd]; linarith
  rw [edge_eq hI.sm hI.hi hI.n hI.sc hI.span, edge_eq hI.sm hI.hi hI.n hI.sc hI.span, hA.x]
  constructor
  · apply mul_lt_mul_of_pos_left _ hI.sm
    apply Real.exp_lt_exp.2
    exact div_lt_div_of_pos_right (by linarith) hI.sc
  · apply mul_le_mul_of_nonneg_left _ hI.sm.le
    apply Real.exp_le_exp.2
    apply div_le_div_of_nonneg_right _ hI.sc.le
    push_cast
    linarith

open Classical in
/-- C106. In exact arithmetic `percentile(p)`, for `p` above 0 and `N` values, is in the bin of the `k + 1`-st smallest value, where `k + 1` is `p * N` rounded up. -/
theorem log_percentile_partial {b : Nat} (hb : 0 < b) (hb' : b < 2 ^ 32 - 1) {small high : ℝ} (hs : 0 < small) (hh : small < high) {scal : Bool} {h0 : L}
    (h0e : new exact b small high scal = .ok h0) {ops : List Op} (hl : ∀ o ∈ ops, Legal o)
    (hnear : scal = false → ∀ o ∈ ops, ∀ v ∈ given o, Near small high (2 * ((b + 1) / 2)) v) {h : L} (hr : Runs exact h0 ops h) (hv : vals ops ≠ [])
    {p : ℝ} (hp0 : 0 < p) (hp1 : p ≤ 1) :
    ∃ (x : ℝ) (bin k : Nat) (v : ℝ), percentile exact h p = .ok x ∧ (sorted (vals ops))[k]? = some v ∧ (k : ℝ) < p * (vals ops).length ∧ p * (vals ops).length ≤ k + 1 ∧
      bin < h.n ∧ inBin h.small h.high h.n bin v ∧ edge h.small h.high h.n bin < x ∧ x ≤ edge h.small h.high h.n (bin + 1) := by
  obtain ⟨hI, -⟩ := runs_inv hb hb' hs hh h0e hl hnear hr
  generalize vals ops = vs at *
  obtain ⟨x, bin, c, d, e, hA⟩ := perc_at hI hp0 hp1 hv
  have hN : (0 : ℝ) < vs.length := by exact_mod_cast List.length_pos_of_ne_nil hv
  have hT : 0 < p * vs.length := mul_pos hp0 hN
  have hc0 : 0 < ⌈p * vs.length⌉ := Int.ceil_pos.2 hT
  obtain ⟨k, hk⟩ := Int.eq_ofNat_of_zero_le (show 0 ≤ ⌈p * vs.length⌉ - 1 by omega)
  have hk1 := Int.ceil_lt_add_one (p * (vs.length : ℝ))
  have hk2 := Int.le_ceil (p * (vs.length : ℝ))
  rw [show ⌈p * (vs.length : ℝ)⌉ = (k : Int) + 1 by omega] at hk1 hk2
  push_cast at hk1 hk2
  have hlow := hA.low
  have hhigh := hA.high
  have hck : c ≤ k := by
    have : (c : ℝ) < ((k + 1 : Nat) : ℝ) := by push_cast; linarith
    have : c < k + 1 := by exact_mod_cast this
    omega
  have hkd : k < d := by
    have : (k : ℝ) < d := by linarith
    exact_mod_cast this
  have hperm : (sorted vs).Perm vs := List.mergeSort_perm _ _
  have hsort : (sorted vs).Pairwise (· ≤ ·) := by
    have := List.pairwise_mergeSort (le := fun a b : ℝ => decide (a ≤ b)) (fun a b c h1 h2 => by
      rw [decide_eq_true_eq] at *; exact le_trans h1 h2) (fun a b => by
      rw [Bool.or_eq_true, decide_eq_true_eq, decide_eq_true_eq]; exact le_total a b) vs
    exact List.Pairwise.imp (fun h => of_decide_eq_true h) this
  have hdl : d ≤ vs.length := by rw [hA.hd]; exact List.countP_le_length
  have hkl : k < (sorted vs).length := by rw [hperm.length_eq]; omega
  refine ⟨x, bin, k, (sorted vs)[k], e, List.getElem?_eq_getElem hkl, by linarith, by linarith, hA.lt, ?_, hA.bounds hI⟩
  rw [← key_iff hI.sm hI.hi hI.sc hI.span hA.lt]
  have q1 := sorted_prefix (p := fun v => decide (key h.scaling h.small h.n v < bin)) (fun a b hab hb => by
    rw [decide_eq_true_eq] at *
    exact lt_of_le_of_lt (key_mono hI.sc hI.sm h.n hab) hb) hsort (List.getElem?_eq_getElem hkl)
  have q2 := sorted_prefix (p := fun v => decide (key h.scaling h.small h.n v < bin + 1)) (fun a b hab hb => by
    rw [decide_eq_true_eq] at *
    exact lt_of_le_of_lt (key_mono hI.sc hI.sm h.n hab) hb) hsort (List.getElem?_eq_getElem hkl)
  rw [hperm.countP_eq, decide_eq_true_eq] at q1 q2
  rw [← hA.hc] at q1
  rw [← hA.hd] at q2
  omega

/-- C106. In exact arithmetic percentiles do not decrease. -/
theorem log_percentile_monotone_partial {b : Nat} (hb : 0 < b) (hb' : b < 2 ^ 32 - 1) {small high : ℝ} (hs : 0 < small) (hh : small < high) {scal : Bool} {h0 : L}
    (h0e : new exact b small high scal = .ok h0) {ops : List Op} (hl : ∀ o ∈ ops, Legal o)
    (hnear : scal = false → ∀ o ∈ ops, ∀ v ∈ given o, Near small high (2 * ((b + 1) / 2)) v) {h : L} (hr : Runs exact h0 ops h) (hv : vals ops ≠ [])
    {p q : ℝ} (hp0 : 0 < p) (hpq : p ≤ q) (hq1 : q ≤ 1) :
    ∃ x y, percentile exact h p = .ok x ∧ percentile exact h q = .ok y ∧ x ≤ y := by
  obtain ⟨hI, -⟩ := runs_inv hb hb' hs hh h0e hl hnear hr
  generalize vals ops = vs at *
  obtain ⟨x, bin, c, d, e, hA⟩ := perc_at hI hp0 (hpq.trans hq1) hv
  obtain ⟨y, bin', c', d', e', hB⟩ := perc_at hI (lt_of_lt_of_le hp0 hpq) hq1 hv
  refine ⟨x, y, e, e', ?_⟩
  have hT : p * (vs.length : ℝ) ≤ q * vs.length := mul_le_mul_of_nonneg_right hpq (Nat.cast_nonneg _)
  rcases Nat.lt_trichotomy bin bin' with h1 | h1 | h1
  · have h2 := (hA.bounds hI).2
    have h3 := (hB.bounds hI).1
    refine le_trans h2 (le_trans ?_ h3.le)
    rw [edge_eq hI.sm hI.hi hI.n hI.sc hI.span, edge_eq hI.sm hI.hi hI.n hI.sc hI.span]
    apply mul_le_mul_of_nonneg_left _ hI.sm.le
    apply Real.exp_le_exp.2
    exact div_le_div_of_nonneg_right (by exact_mod_cast h1) hI.sc.le
  · subst h1
    have hc : c = c' := hA.hc.trans hB.hc.symm
    have hd : d = d' := hA.hd.trans hB.hd.symm
    subst hc hd
    rw [hA.x, hB.x]
    have hcd : (0 : ℝ) < d - c := by linarith [hA.low, hA.high]
    apply mul_le_mul_of_nonneg_left _ hI.sm.le
    apply Real.exp_le_exp.2
    apply div_le_div_of_nonneg_right _ hI.sc.le
    have : (p * (vs.length : ℝ) - c) / (d - c) ≤ (q * vs.length - c) / (d - c) := div_le_div_of_nonneg_right (by linarith) hcd.le
    linarith
  · exfalso
    have : d' ≤ c := by
      rw [hB.hd, hA.hc]
      apply List.countP_mono_left
      intro v _ hv
      rw [decide_eq_true_eq] at *
      omega
    have h1 := hB.high
    have h2 := hA.low
    have h3 : (d' : ℝ) ≤ c := by exact_mod_cast this
    linarith

/-- The hypotheses of the theorems on percentiles, for the histogram of the example above. -/
example : ∃ h0 h, new exact 3 1 16 true = .ok h0 ∧ Runs exact h0 [.add 2, .reset, .add (1 / 100), .add 3] h ∧ vals [.add 2, .reset, .add (1 / 100), .add 3] ≠ [] := by
  obtain ⟨h0, e, -⟩ := new_ok (b := 3) (by norm_num) (by norm_num) (small := 1) (high := 16) (by norm_num) (by norm_num) true
  obtain ⟨h, hr, -⟩ := log_counts_partial (by norm_num) (by norm_num) (by norm_num) (by norm_num) e [.add 2, .reset, .add (1 / 100), .add 3] (by
    intro o ho
    simp only [List.mem_cons, List.not_mem_nil, or_false] at ho
    rcases ho with rfl | rfl | rfl | rfl <;> simp [Legal]) (fun h => by cases h)
  exact ⟨h0, h, e, hr, by simp [vals]⟩

/-- C106. `percentile(0)` is the lower end of the range if the first bin has a value, else it is 0. -/
theorem log_percentile_zero_partial {b : Nat} (hb : 0 < b) (hb' : b < 2 ^ 32 - 1) {small high : ℝ} (hs : 0 < small) (hh : small < high) {scal : Bool} {h0 : L}
    (h0e : new exact b small high scal = .ok h0) {ops : List Op} (hl : ∀ o ∈ ops, Legal o)
    (hnear : scal = false → ∀ o ∈ ops, ∀ v ∈ given o, Near small high (2 * ((b + 1) / 2)) v) {h : L} (hr : Runs exact h0 ops h) :
    percentile exact h 0 = .ok (if countIn h.small h.high h.n 0 (vals ops) = 0 then 0 else h.small) := by
  obtain ⟨hI, -⟩ := runs_inv hb hb' hs hh h0e hl hnear hr
  have hlen : h.bins.length = h.n := by rw [hI.bins]; simp
  have hn := hI.n
  obtain ⟨b, g1, g2, g3, g4, g5⟩ := perc_any exact (p := 0) (le_refl _) (by norm_num) (by rw [hlen]; exact hI.n) (by
    show (0 : ℝ) * (h.count : ℝ) ≤ (h.bins.sum : Nat)
    rw [zero_mul]; exact Nat.cast_nonneg _)
  have hb0 : b = 0 := by
    by_contra hne
    have := g3 0 (by omega)
    have this' : (((h.bins.take (0 + 1)).sum : Nat) : ℝ) < 0 * (h.count : ℝ) := this
    rw [zero_mul] at this'
    exact absurd this' (not_lt.2 (Nat.cast_nonneg _))
  subst hb0
  rw [g5]
  have hc : (h.bins.take (0 + 1)).sum = countIn h.small h.high h.n 0 (vals ops) := by
    rw [hI.toCore.take (by omega)]
    apply List.countP_congr
    intro v _
    classical
    rw [decide_eq_true_iff, decide_eq_true_iff, ← key_iff hI.sm hI.hi hI.sc hI.span hI.n]
    omega
  rw [hc, List.take_zero, List.sum_nil]
  congr 1
  split
  · rfl
  · show h.small * Real.exp ((((0 : Nat) : ℝ) + (0 * (h.count : ℝ) - ((0 : Nat) : ℝ)) / _) / h.scaling) = h.small
    simp

/-- C106. So the documented meaning fails at 0: of a single 3 between 1 and 4 `percentile(0)` is 0, where no value and no bin is. -/
theorem log_percentile_zero_false : ∃ h0 h, new exact 2 1 4 true = .ok h0 ∧ Runs exact h0 [.add 3] h ∧ h.small = 1 ∧ h.high = 4 ∧ percentile exact h 0 = .ok 0 := by
  obtain ⟨h0, e, -⟩ := new_ok (b := 2) (by norm_num) (by norm_num) (small := 1) (high := 4) (by norm_num) (by norm_num) true
  have hl : ∀ o ∈ [Op.add 3], Legal o := by
    intro o ho
    rw [List.mem_singleton.1 ho]
    show (0 : ℝ) < 3
    norm_num
  obtain ⟨h, hr, hn, -, -, -, -, -, -, -, -, -, hsame⟩ := log_counts_partial (by norm_num) (by norm_num) (by norm_num) (by norm_num) e [.add 3] hl (fun h => by cases h)
  obtain ⟨h1, h4⟩ := hsame (Or.inr fun o ho v hv => by
    rw [List.mem_singleton.1 ho] at hv
    rw [List.mem_singleton.1 hv]
    norm_num)
  refine ⟨h0, h, e, hr, h1, h4, ?_⟩
  rw [log_percentile_zero_partial (by norm_num) (by norm_num) (by norm_num) (by norm_num) e hl (fun h => by cases h) hr, if_pos]
  rw [h1, h4, hn]
  unfold countIn
  rw [show vals [Op.add 3] = [3] from rfl, List.countP_eq_zero]
  intro v hv
  classical
  rw [List.mem_singleton.1 hv, decide_eq_true_iff]
  unfold inBin edge
  have : ((4 : ℝ) / 1) ^ (((0 + 1 : Nat) : ℝ) / ((2 * ((2 + 1) / 2) : Nat) : ℝ)) = 2 := by
    rw [show (4 : ℝ) / 1 = 2 ^ (2 : ℝ) by norm_num, ← Real.rpow_mul (by norm_num)]
    norm_num
  rw [this]
  norm_num

/-- C106. Whatever the machine makes of logarithms and exponentials, if it rounds monotonously and has the whole numbers up to the number of values, then a percentile between 0 and 1
never reads outside the bins and never aborts, after whatever calls. -/
theorem log_percentile_safe (A : Ar) (hmono : Monotone A.r) {b : Nat} (hb' : b < 2 ^ 32 - 1) {small high : ℝ} {scal : Bool} {h0 h : L} (h0e : new A b small high scal = .ok h0) {m : Nat}
    (ops : List Op) (he : run A m h0 ops = .ok h) (hint : ∀ k : Nat, k ≤ (vals ops).length → A.r k = k) {p : ℝ} (hp0 : 0 ≤ p) (hp1 : p ≤ 1) :
    ∃ x, percentile A h p = .ok x := by
  obtain ⟨hT, hc, hn⟩ := new_tot hb' h0e
  obtain ⟨a1, a2, a3⟩ := run_tot hT hc ops h he
  obtain ⟨b, -, -, -, -, g⟩ := perc_any A hp0 hp1 (by rw [a1.len]; exact a1.pos) (by
    rw [a1.sum, a2, hint _ (le_refl _)]
    have h1 : p * ((vals ops).length : ℝ) ≤ (vals ops).length := mul_le_of_le_one_left (Nat.cast_nonneg _) hp1
    have := hmono h1
    rwa [hint _ (le_refl _)] at this)
  exact ⟨_, g⟩

/-- The hypotheses of `log_percentile_safe`. -/
example : Monotone exact.r ∧ ∀ k : Nat, exact.r k = k := ⟨monotone_id, fun _ => rfl⟩

/-- C106. Whatever the arithmetic, after whatever calls `mode` is the center of a fullest bin, the last of these. -/
theorem log_mode (A : Ar) {b : Nat} (hb' : b < 2 ^ 32 - 1) {small high : ℝ} {scal : Bool} {h0 h : L} (h0e : new A b small high scal = .ok h0) {m : Nat} (ops : List Op)
    (he : run A m h0 ops = .ok h) : ∃ i y, i < h.n ∧ mode A h = .ok (bincenter A h i) ∧ h.bins[i]? = some y ∧ ∀ j x, h.bins[j]? = some x → x ≤ y ∧ (i < j → x < y) := by
  obtain ⟨hT, hc, hn⟩ := new_tot hb' h0e
  obtain ⟨a1, a2, a3⟩ := run_tot hT hc ops h he
  have hlen : 0 < h.bins.length := by rw [a1.len]; exact a1.pos
  obtain ⟨y, h1, h2⟩ := modeBin_top hlen
  refine ⟨_, y, ?_, ?_, h1, h2⟩
  · have := (List.getElem?_eq_some_iff.1 h1).1
    rwa [a1.len] at this
  · unfold mode
    rw [PQ.rd_eq 0 _ _ hlen, Res.bind_ok]
    rfl

/-- C106. In exact arithmetic the center of a bin is the geometric mean of its edges. -/
theorem log_center_partial {b : Nat} (hb : 0 < b) (hb' : b < 2 ^ 32 - 1) {small high : ℝ} (hs : 0 < small) (hh : small < high) {scal : Bool} {h0 : L}
    (h0e : new exact b small high scal = .ok h0) {ops : List Op} (hl : ∀ o ∈ ops, Legal o)
    (hnear : scal = false → ∀ o ∈ ops, ∀ v ∈ given o, Near small high (2 * ((b + 1) / 2)) v) {h : L} (hr : Runs exact h0 ops h) (i : Nat) :
    bincenter exact h i * bincenter exact h i = edge h.small h.high h.n i * edge h.small h.high h.n (i + 1) ∧ 0 < bincenter exact h i := by
  obtain ⟨hI, -⟩ := runs_inv hb hb' hs hh h0e hl hnear hr
  rw [edge_eq hI.sm hI.hi hI.n hI.sc hI.span, edge_eq hI.sm hI.hi hI.n hI.sc hI.span]
  show h.small * Real.exp (((i : ℝ) + 0.5) / h.scaling) * (h.small * Real.exp (((i : ℝ) + 0.5) / h.scaling)) = _ ∧ 0 < h.small * Real.exp (((i : ℝ) + 0.5) / h.scaling)
  refine ⟨?_, mul_pos hI.sm (Real.exp_pos _)⟩
  have e : ∀ a b : ℝ, h.small * Real.exp a * (h.small * Real.exp b) = h.small * h.small * Real.exp (a + b) := by
    intro a b
    rw [Real.exp_add]; ring
  rw [e, e]
  congr 2
  push_cast
  ring

/-! ## C107 -/

/-- C107. In exact arithmetic a logarithmic histogram that sums up counts, for each bin, the pairs whose index is in the bin and holds the sum of their data; any index goes, also
one that is not positive (it is in the first bin). -/
theorem log_accum_partial {b : Nat} (hb : 0 < b) (hb' : b < 2 ^ 32 - 1) {small high : ℝ} (hs : 0 < small) (hh : small < high) {a0 : LA} (h0e : newA exact b small high = .ok a0)
    (ops : List OpA) (hnear : ∀ i d, OpA.add i d ∈ ops → i ≤ small ∨ Near small high (2 * ((b + 1) / 2)) i) :
    ∃ a, runA exact a0 ops = .ok a ∧ a.h.n = 2 * ((b + 1) / 2) ∧ a.h.bins.length = a.h.n ∧ a.val.length = a.h.n ∧
      ∀ i, i < a.h.n → a.h.bins[i]? = some (dataIn small high a.h.n i (pairs ops)).length ∧ a.val[i]? = some (dataIn small high a.h.n i (pairs ops)).sum := by
  obtain ⟨a0', e0, hI0, n0, s0, g0⟩ := newA_ok hb hb' hs hh
  rw [h0e] at e0
  cases e0
  obtain ⟨a, e, hI, n', s', g'⟩ := runA_ok hI0 (by rw [n0]; omega) ops (fun i d ho => by
    rw [n0, s0, g0]
    rcases hnear i d ho with h | h
    · right; linarith
    · left; exact h)
  have hC := hI.core
  have hspan := hC.span
  rw [s', g', s0, g0] at hspan
  refine ⟨a, e, n'.trans n0, by rw [hC.bins]; simp, by rw [hI.val]; simp, fun i hi => ?_⟩
  have hk : ∀ v, key a.h.scaling a.h.small a.h.n v = i ↔ inBin small high a.h.n i v := fun v => by
    rw [s', s0]
    exact key_iff hs hh hC.sc hspan hi v
  constructor
  · rw [hC.bins, tally_get _ hi, at_count]
    congr 1
    unfold dataIn
    rw [List.length_map, ← List.countP_eq_length_filter, List.countP_map]
    apply List.countP_congr
    intro p _
    classical
    rw [decide_eq_true_iff]
    show decide (key a.h.scaling a.h.small a.h.n p.1 = i) = true ↔ _
    rw [decide_eq_true_eq]
    exact hk p.1
  · rw [hI.val, tally_get _ hi, at_data]
    congr 1
    unfold dataIn
    congr 2
    apply List.filter_congr
    intro p _
    classical
    rw [decide_eq_decide]
    exact hk p.1

/-- The hypotheses of `log_accum_partial`: an index that is negative and one in the range. -/
example : ∃ a0, newA exact 4 1 16 = .ok a0 ∧ ∀ i d, OpA.add i d ∈ [OpA.add (-3) 7, .add 4 (-2), .reset, .add 8 1] → i ≤ 1 ∨ Near 1 16 (2 * ((4 + 1) / 2)) i := by
  obtain ⟨a0, e, -⟩ := newA_ok (b := 4) (by norm_num) (by norm_num) (small := 1) (high := 16) (by norm_num) (by norm_num)
  refine ⟨a0, e, fun i d h => ?_⟩
  have hlog : ∀ v : ℝ, 0 < v → v ≤ 16 → Near 1 16 (2 * ((4 + 1) / 2)) v := by
    intro v h0 h1
    unfold Near
    rw [div_one, div_one]
    have h2 := Real.log_le_log h0 h1
    have h3 : 0 < Real.log (16 : ℝ) := Real.log_pos (by norm_num)
    norm_num
    linarith
  simp only [List.mem_cons, OpA.add.injEq, List.not_mem_nil, or_false, reduceCtorEq, false_or] at h
  rcases h with ⟨rfl, -⟩ | ⟨rfl, -⟩ | ⟨rfl, -⟩
  · left; norm_num
  · right; exact hlog _ (by norm_num) (by norm_num)
  · right; exact hlog _ (by norm_num) (by norm_num)

end Verif.LogHisto
