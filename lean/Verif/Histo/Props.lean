import Verif.Histo.Dbl

/-!
# Properties of uniform histograms

C32 (counts), C33 (percentiles), C92 (the histogram stays within its array, with doubles).
-/

namespace Verif.Histo

open Verif Flt

/-! ## C32 -/

/-- C32. In exact arithmetic no call on a histogram goes wrong, bin `i` counts the values of its interval (with everything beyond in the end bins of a histogram that
neither scales nor grows), the counts sum up to the number of values, and the bins cover the range without gap. A growable histogram must not meet values more than
a hundred million bins away (`Fits`), see `histogram_grow_false`. -/
theorem histogram_counts_partial {b : Nat} (hb : 0 < b) (hb' : b < 2 ^ 32 - 1) {low high : Rat} (hlh : low < high) {scal grow : Bool} (h1 : ¬(scal = true ∧ grow = true))
    {h0 : H} (h0e : new id b low high scal grow = .ok h0) {M : Nat} (ops : List Op) (hf : Fits h0 M ops) :
    ∃ h, run id h0 ops = .ok h ∧ h.bins.length = h.n ∧ 0 < h.width ∧ h.low + h.n * h.width = h.high ∧
      (∀ i, i < h.n → h.bins[i]? = some ((vals ops).countP (inBin h.low h.width h.n i))) ∧
      h.bins.sum = (vals ops).length ∧ h.st.number = (vals ops).length ∧
      h.low ≤ low ∧ high ≤ h.high ∧
      (scal = false → grow = false → h.low = low ∧ h.high = high ∧ h.n = 2 * ((b + 1) / 2)) ∧
      (scal = true ∨ grow = true → ∀ v ∈ vals ops, h.low ≤ v ∧ v < h.high) ∧
      (scal = true → h.n = 2 * ((b + 1) / 2)) ∧ (grow = true → h.width = h0.width) := by
  obtain ⟨h0', e0, hI0, n0, l0, g0, s0, w0⟩ := new_ok hb hlh h1
  rw [h0e] at e0
  cases e0
  obtain ⟨h, e, hI, hR, -⟩ := run_ok hI0 (by rw [n0]; omega) ops hf
  obtain ⟨q1, q2, q3⟩ := hI.sum
  refine ⟨h, e, q3, hI.width, hI.span, fun i hi => ?_, q1, q2, by rw [← l0]; exact hR.low, by rw [← g0]; exact hR.high, ?_, ?_, ?_, ?_⟩
  · rw [hI.bins, tally_get _ hi, at_count]
    congr 1
    apply List.countP_congr
    intro v _
    rw [decide_eq_true_eq]
    exact key_iff hI.width hi v
  · intro a c
    have := hR.fixed (s0.trans a) (w0.trans c)
    rw [l0, g0] at this
    exact ⟨this.1, this.2, (hR.n (w0.trans c)).trans n0⟩
  · intro a
    exact hI.inside (by rw [hR.scal, hR.grow, s0, w0]; exact a)
  · intro a
    have : grow = false := by cases grow with | false => rfl | true => exact absurd ⟨a, rfl⟩ h1
    exact (hR.n (w0.trans this)).trans n0
  · intro a
    have : scal = false := by cases scal with | false => rfl | true => exact absurd ⟨rfl, a⟩ h1
    exact hR.width (s0.trans this)

/-- The hypotheses of `histogram_counts_partial` for a growable histogram: three values make it grow in both directions. -/
example : ∃ h0, new id 4 0 4 false true = .ok h0 ∧ Fits h0 1000 [.add (-7), .add (5 / 2), .add 900] := by
  refine ⟨_, rfl, fun _ => ⟨by decide, by decide, ?_⟩⟩
  intro v hv
  simp only [List.mem_cons, Op.add.injEq, List.not_mem_nil, or_false] at hv
  rcases hv with rfl | rfl | rfl <;> decide +kernel

/-- What the theorem says of a scalable histogram that had `[1, 0]` and meets 9. -/
example : (new id 2 0 4 true false >>= (run id · [.add 1, .add 9, .add (-1), .add 30])).map (fun h => (h.low, h.high, h.bins)) = .ok (-16, 48, [3, 1]) := by decide +kernel

/-- C32. It is false of growable histograms: the new number of bins is computed in 32 bits, so that a value 2^31 - 1 bins up is counted in the last of four bins. -/
theorem histogram_grow_false : (new id 2 0 2 false true >>= (run id · [.add (2 ^ 31 - 1)])).map (fun h => (h.low, h.high, h.width, h.bins)) = .ok (0, 4, 1, [0, 0, 0, 1]) ∧
    (vals [.add (2 ^ 31 - 1)]).countP (inBin 0 1 (2 ^ 31) 3) = 0 ∧ ¬((2 ^ 31 - 1 : Rat) < 4) := by decide +kernel

/-- C32. A growable histogram that meets a value 2^32 bins up converts a number that `unsigned` cannot hold. -/
theorem histogram_grow_ub : (new id 2 0 2 false true >>= (run id · [.add (2 ^ 32)])) = .ub := by decide +kernel

/-- C32. An empty range is accepted, but then a scalable histogram that meets a value beyond does not return, however many rounds it takes. -/
theorem histogram_empty_range (fuel : Nat) : ∀ (h h' : H) (v : Rat), h.low = h.high → h.high ≤ v → scaleUp id v fuel h ≠ .ok h' := by
  induction fuel with
  | zero => intro h h' v _ hv; unfold scaleUp; rw [if_pos hv]; intro hc; cases hc
  | succ fuel ih =>
    intro h h' v hr hv
    unfold scaleUp
    rw [if_pos hv]
    cases halveUp (· + ·) 0 h.n h.bins with
    | abort => intro hc; cases hc
    | ub => intro hc; cases hc
    | ok b =>
      rw [Res.bind_ok]
      refine ih _ h' v ?_ ?_
      · show h.low = h.high + (h.high - h.low); linarith
      · show h.high + (h.high - h.low) ≤ v; linarith

example : (new id 2 5 5 true false >>= (run id · [.add 7])) = .ub := by decide +kernel

/-! ## C92 -/

/-- C92. With doubles a histogram writes past the end of its bins, whichever way halves are rounded: 2 bins from -3 to 1 have no bin for the double below 1. -/
theorem histogram_double_false (R : Rounding) : IsDouble (1 - 1 / 2 ^ 53) ∧ (1 - 1 / 2 ^ 53 : Rat) < 1 ∧
    (new R.rnd 2 (-3) 1 false false >>= (add R.rnd · (1 - 1 / 2 ^ 53))) = .ub := by
  have hd : IsDouble (1 - 1 / 2 ^ 53) := ⟨2 ^ 53 - 1, -53, by norm_num, by norm_num [zpow_neg]⟩
  have i4 : R.rnd 4 = 4 := R.exact (by have := isDouble_int 4 (by norm_num); exact_mod_cast this)
  have i2 : R.rnd 2 = 2 := R.exact (by have := isDouble_int 2 (by norm_num); exact_mod_cast this)
  have e1 : R.rnd (1 - 1 / 2 ^ 53 - -3) = 4 := by
    have d4 : IsDouble 4 := by have := isDouble_int 4 (by norm_num); exact_mod_cast this
    have h1 := (abs_le.1 (R.nearest (1 - 1 / 2 ^ 53 - -3) 4 d4)).1
    rw [show |(4 : Rat) - (1 - 1 / 2 ^ 53 - -3)| = 1 / 2 ^ 53 by norm_num] at h1
    have h2 := R.le_of_double d4 (show (1 - 1 / 2 ^ 53 - -3 : Rat) ≤ 4 by norm_num)
    obtain ⟨m, e, hm, he⟩ := R.isDouble (1 - 1 / 2 ^ 53 - -3)
    generalize R.rnd (1 - 1 / 2 ^ 53 - -3) = x at *
    by_contra hne
    have hlt : x < 4 := lt_of_le_of_ne h2 hne
    have hx : x * 2 ^ 51 = m * (2 : Rat) ^ (e + 51) := by rw [he, zpow_add₀ (by norm_num)]; norm_cast; ring
    have hm' : (m : Rat) ≤ 2 ^ 53 := by exact_mod_cast (abs_le.1 hm).2
    have hlow : (2 ^ 53 : Rat) - 1 < x * 2 ^ 51 := by linarith
    have hhigh : x * 2 ^ 51 < 2 ^ 53 := by linarith
    rcases le_or_gt 0 (e + 51) with hs | hs
    · obtain ⟨k, hk⟩ := Int.eq_ofNat_of_zero_le hs
      rw [hx, hk] at hlow hhigh
      have a1 : (2 ^ 53 : Int) - 1 < m * 2 ^ k := by exact_mod_cast hlow
      have a2 : m * 2 ^ k < (2 ^ 53 : Int) := by exact_mod_cast hhigh
      omega
    · have : (2 : Rat) ^ (e + 51) ≤ 1 / 2 := by
        have := zpow_le_zpow_right₀ (show (1 : Rat) ≤ 2 by norm_num) (show e + 51 ≤ -1 by omega)
        norm_num at this ⊢
        exact this
      have hz : (0 : Rat) < (2 : Rat) ^ (e + 51) := zpow_pos (by norm_num) _
      have : (m : Rat) * (2 : Rat) ^ (e + 51) ≤ 2 ^ 53 * (1 / 2) := by nlinarith
      linarith
  refine ⟨hd, by norm_num, ?_⟩
  have hw : R.rnd (R.rnd (1 - -3) / R.rnd ((2 : Nat) : Rat)) = 2 := by
    rw [show (1 - -3 : Rat) = 4 by norm_num, i4, show ((2 : Nat) : Rat) = 2 by norm_num, i2, show (4 / 2 : Rat) = 2 by norm_num, i2]
  have hn : new R.rnd 2 (-3) 1 false false = .ok ⟨false, false, 2, -3, 1, 2, [0, 0], 0, Stats.reset⟩ := by
    unfold new
    rw [show decide ((-3 : Rat) ≤ 1) = true by decide +kernel]
    show Res.ok (reset R.rnd ⟨false, false, 2, -3, 1, 0, [], 0, Stats.reset⟩) = _
    unfold reset
    show Res.ok (H.mk false false 2 (-3) 1 (R.rnd (R.rnd (1 - -3) / R.rnd ((2 : Nat) : Rat))) [0, 0] 0 Stats.reset) = _
    rw [hw]
  rw [hn, Res.bind_ok]
  unfold add addGrow addScale
  simp only [Bool.false_eq_true, false_and, if_false, Res.bind_ok]
  have hs : sampleBin R.rnd ⟨false, false, 2, -3, 1, 2, [0, 0], 0, Stats.add R.rnd Stats.reset (1 - 1 / 2 ^ 53)⟩ (1 - 1 / 2 ^ 53) = .ok 2 := by
    unfold sampleBin
    show (if (1 - 1 / 2 ^ 53 : Rat) ≤ -3 then _ else if (1 : Rat) ≤ 1 - 1 / 2 ^ 53 then _ else cell R.rnd 2 (R.rnd (1 - 1 / 2 ^ 53 - -3))) = _
    rw [if_neg (by norm_num), if_neg (by norm_num), e1]
    unfold cell
    rw [if_neg (by norm_num), show (4 / 2 : Rat) = 2 by norm_num, i2]
    decide +kernel
  rw [hs, Res.bind_ok]
  rfl

/-- C92. With doubles the bin that is chosen for a value inside the range is at most one past the end, and it is the right one unless the value is within
`n * 2^-51` widths of an edge; below that distance from the upper end of the range no access leaves the bins. The range is that of a histogram of `n` bins that was not
scaled or grown yet. Missing: the access past the end, which does happen (`histogram_double_false`). -/
theorem histogram_double_partial (R : Rounding) {b : Nat} (hb : 0 < b) (hb' : b < 2 ^ 31 - 1) {low high : Rat} {scal grow : Bool}
    {h : H} (he : new R.rnd b low high scal grow = .ok h) {v : Rat} (hl : low < v) (hv : v < high) :
    0 < h.width ∧ ∃ i, sampleBin R.rnd h v = .ok i ∧ i ≤ h.n ∧ low + (i - h.n / 2 ^ 51) * h.width ≤ v ∧ v < low + (i + 1 + h.n / 2 ^ 51) * h.width ∧
      (v < low + (h.n - h.n / 2 ^ 51) * h.width → i < h.bins.length) := by
  have hh : h = reset R.rnd ⟨scal, grow, 2 * ((b + 1) / 2), low, high, 0, [], 0, Stats.reset⟩ := by
    unfold new at he
    simp only [Res.bind_eq_ok] at he
    obtain ⟨-, -, -, -, -, -, he⟩ := he
    cases he
    rfl
  obtain ⟨c0, i, c1, c2, c3, c4, c5⟩ := cell_double R (n := 2 * ((b + 1) / 2)) (by omega) (by omega) hl hv
  have hn : h.n = 2 * ((b + 1) / 2) := by rw [hh]; rfl
  have hw : h.width = R.rnd (R.rnd (high - low) / R.rnd ((2 * ((b + 1) / 2) : Nat) : Rat)) := by rw [hh]; rfl
  have hbl : h.bins.length = 2 * ((b + 1) / 2) := by rw [hh]; exact List.length_replicate
  have hlo : h.low = low := by rw [hh]; rfl
  have hhi : h.high = high := by rw [hh]; rfl
  rw [hw, hn, hbl]
  refine ⟨c0, i, ?_, c2, c3, c4, c5⟩
  unfold sampleBin
  rw [hlo, hhi, if_neg (not_le.2 hl), if_neg (not_le.2 hv), hw]
  exact c1

example : (new ieee.rnd 4 0 1 false false).map (fun h => (h.width, sampleBin ieee.rnd h (3 / 8))) = .ok (1 / 4, .ok 1) ∧ (0 : Rat) < 3 / 8 ∧ (3 / 8 : Rat) < 1 := by decide +kernel

/-- C92. With doubles a fixed histogram whose ends, width and values are whole numbers, with a range of up to `2^53`, counts exactly and stays within its bins. -/
theorem histogram_integers_partial (R : Rounding) {b : Nat} (hb : 0 < b) (hb' : b < 2 ^ 32 - 1) (low : Int) {k : Nat} (hk : 0 < k) (hr : 2 * ((b + 1) / 2) * k ≤ 2 ^ 53) {h0 : H}
    (he : new R.rnd b low ((low + (2 * ((b + 1) / 2) : Nat) * k : Int) : Rat) false false = .ok h0) (ops : List Op) (hi : ∀ v, Op.add v ∈ ops → ∃ m : Int, v = m) :
    ∃ h, run R.rnd h0 ops = .ok h ∧ h.n = 2 * ((b + 1) / 2) ∧ h.bins.length = h.n ∧ h.bins.sum = (vals ops).length ∧ h.st.number = (vals ops).length ∧
      ∀ i, i < h.n → h.bins[i]? = some ((vals ops).countP (inBin low k h.n i)) := by
  have hh : h0 = reset R.rnd ⟨false, false, 2 * ((b + 1) / 2), low, ((low + (2 * ((b + 1) / 2) : Nat) * k : Int) : Rat), 0, [], 0, Stats.reset⟩ := by
    unfold new at he
    simp only [Res.bind_eq_ok] at he
    obtain ⟨-, -, -, -, -, -, he⟩ := he
    cases he
    rfl
  have hn0 : 0 < 2 * ((b + 1) / 2) := by omega
  have hI : IntFixed h0 [] low k (2 * ((b + 1) / 2)) := by
    rw [hh]
    exact ⟨rfl, rfl, rfl, rfl, rfl, intFixed_width R hn0 hr hk, (tally_nil _).symm, rfl⟩
  obtain ⟨h, e, hI'⟩ := intFixed_run R hk hn0 (by omega) hr hI ops hi
  refine ⟨h, e, hI'.n, by rw [hI'.bins, tally_length, hI'.n], ?_, hI'.number, fun i hi => ?_⟩
  · rw [hI'.bins, sum_tally _ _ _ fun v _ => key_lt hn0 v]
  · rw [hI'.n] at hi ⊢
    rw [hI'.bins, tally_get _ hi, at_count]
    congr 1
    apply List.countP_congr
    intro v _
    rw [decide_eq_true_eq]
    exact key_iff (by exact_mod_cast hk) hi v

example : 2 * ((3 + 1) / 2) * 5 ≤ 2 ^ 53 ∧ (new ieee.rnd 3 (-10) 10 false false >>= (run ieee.rnd · [.add 9, .add 10, .add (-10), .add (-3)])).map H.bins = .ok [1, 1, 0, 2] := by
  decide +kernel

/-! ## C33 -/

/-- The double of `1e-12` in `Double.hpp:28` is `eps` up to rounding; all the theorems are for any small positive number. -/
example : (0 : Rat) < 1 / 10 ^ 12 := by norm_num

/-- C33. `percentile(m/N)`, with `N` values, lies in the bin of the `m`-th smallest value (in exact arithmetic, and for fewer than `1/eps` values). -/
theorem percentile_rank_partial {b : Nat} (hb : 0 < b) (hb' : b < 2 ^ 32 - 1) {low high : Rat} (hlh : low < high) {scal grow : Bool} (h1 : ¬(scal = true ∧ grow = true))
    {h0 h : H} (h0e : new id b low high scal grow = .ok h0) {M : Nat} (ops : List Op) (hf : Fits h0 M ops) (he : run id h0 ops = .ok h)
    {eps : Rat} (heps : 0 < eps) (heps1 : eps * (vals ops).length ≤ 1) {m : Nat} (hm0 : 0 < m) (hm : m ≤ (vals ops).length) :
    ∃ x bin v, percentile id eps h (m / (vals ops).length) = .ok x ∧ (sorted (vals ops))[m - 1]? = some v ∧ bin < h.n ∧ inBin h.low h.width h.n bin v = true ∧
      h.low + bin * h.width < x ∧ x ≤ h.low + (bin + 1) * h.width := by
  obtain ⟨h0', e0, hI0, n0, l0, g0, s0, w0⟩ := new_ok hb hlh h1
  rw [h0e] at e0
  cases e0
  obtain ⟨h', e, hI, hR, -⟩ := run_ok hI0 (by rw [n0]; omega) ops hf
  rw [he] at e
  cases e
  generalize vals ops = vs at *
  have hNn : 0 < vs.length := by omega
  have hN : (0 : Rat) < vs.length := by exact_mod_cast hNn
  have hN1 : (1 : Rat) ≤ vs.length := by exact_mod_cast hNn
  have hmq : (1 : Rat) ≤ m := by exact_mod_cast hm0
  have hmN : (m : Rat) ≤ vs.length := by exact_mod_cast hm
  have hT : (m : Rat) / vs.length * vs.length = m := div_mul_cancel₀ _ (ne_of_gt hN)
  have heps2 : eps ≤ 1 := by nlinarith
  obtain ⟨x, bin, p1, p2⟩ := perc_at hI heps (p := m / vs.length) (by rw [div_le_one hN]; exact hmN) (by rw [hT]; linarith)
  rw [hT] at p2
  have hle : vs.countP (fun v => decide (key h.low h.width h.n v < bin + 1)) ≤ vs.length := List.countP_le_length
  have hstop := p2.stop
  rw [gt_nat (by
    have : ((vs.countP (fun v => decide (key h.low h.width h.n v < bin + 1)) : Nat) : Rat) ≤ vs.length := by exact_mod_cast hle
    nlinarith) heps2, decide_eq_false_iff_not] at hstop
  have hlow := p2.low
  have hlow : vs.countP (fun v => decide (key h.low h.width h.n v < bin)) < m := by exact_mod_cast hlow
  obtain ⟨v, v1, v2⟩ := p2.rank hI.width (k := m - 1) (by omega) (by omega)
  obtain ⟨q1, q2, q3⟩ := p2.bounds hI.width heps
  exact ⟨x, bin, v, p1, v1, p2.lt, v2, q1, q3 (by exact_mod_cast not_lt.1 hstop)⟩

/-- C33. Of any other `p` the same holds up to the tolerance `eps` of the comparison: the value whose bin it is has a rank `k + 1` with `p * N - eps * N < k + 1 < p * N + 1`, and
the result is not more than `eps * N` widths past that bin. -/
theorem percentile_any_partial {b : Nat} (hb : 0 < b) (hb' : b < 2 ^ 32 - 1) {low high : Rat} (hlh : low < high) {scal grow : Bool} (h1 : ¬(scal = true ∧ grow = true))
    {h0 h : H} (h0e : new id b low high scal grow = .ok h0) {M : Nat} (ops : List Op) (hf : Fits h0 M ops) (he : run id h0 ops = .ok h)
    {eps : Rat} (heps : 0 < eps) {p : Rat} (hp1 : p ≤ 1) (hp0 : eps ≤ p * (vals ops).length) :
    ∃ (x : Rat) (bin k : Nat) (v : Rat), percentile id eps h p = .ok x ∧ (sorted (vals ops))[k]? = some v ∧ bin < h.n ∧ inBin h.low h.width h.n bin v = true ∧
      k < p * (vals ops).length ∧ p * (vals ops).length - eps * (vals ops).length < k + 1 ∧
      h.low + bin * h.width < x ∧ x ≤ h.low + (bin + 1) * h.width + eps * (vals ops).length * h.width := by
  obtain ⟨h0', e0, hI0, n0, l0, g0, s0, w0⟩ := new_ok hb hlh h1
  rw [h0e] at e0
  cases e0
  obtain ⟨h', e, hI, hR, -⟩ := run_ok hI0 (by rw [n0]; omega) ops hf
  rw [he] at e
  cases e
  generalize vals ops = vs at *
  obtain ⟨x, bin, p1, p2⟩ := perc_at hI heps hp1 hp0
  obtain ⟨q1, q2, q3⟩ := p2.bounds hI.width heps
  have hN : (0 : Rat) < vs.length := by
    rcases Nat.eq_zero_or_pos vs.length with h0 | h0
    · rw [h0] at hp0; push_cast at hp0; linarith
    · exact_mod_cast h0
  have hle : vs.countP (fun v => decide (key h.low h.width h.n v < bin + 1)) ≤ vs.length := List.countP_le_length
  have hlow := p2.low
  have hfill := p2.filled
  have hstop := gt_false (by exact_mod_cast Nat.zero_le _) p2.stop
  have hr := fun k => p2.rank hI.width (k := k)
  generalize vs.countP (fun v => decide (key h.low h.width h.n v < bin)) = c at *
  generalize vs.countP (fun v => decide (key h.low h.width h.n v < bin + 1)) = d at *
  generalize hT : p * vs.length = T at *
  have hen : 0 < eps * vs.length := mul_pos heps hN
  by_cases hTd : T ≤ d
  · -- the rank is `⌈T⌉`
    have hT0 : 0 < T := by linarith
    have hc0 : 0 < ⌈T⌉ := Int.ceil_pos.2 hT0
    obtain ⟨k, hk⟩ := Int.eq_ofNat_of_zero_le (show 0 ≤ ⌈T⌉ - 1 by omega)
    have hk1 := Int.ceil_lt_add_one T
    have hk2 := Int.le_ceil T
    rw [show ⌈T⌉ = (k : Int) + 1 by omega] at hk1 hk2
    push_cast at hk1 hk2
    have hck : c ≤ k := by
      have : (c : Rat) < ((k + 1 : Nat) : Rat) := by push_cast; linarith
      have : c < k + 1 := by exact_mod_cast this
      omega
    have hkd : k < d := by
      have : (k : Rat) < d := by linarith
      exact_mod_cast this
    obtain ⟨v, v1, v2⟩ := hr k hck hkd
    exact ⟨x, bin, k, v, p1, v1, p2.lt, v2, by linarith, by linarith, q1, q2⟩
  · have hTd' := not_le.1 hTd
    have hd1 : (1 : Rat) ≤ d := by
      have : 1 ≤ d := by omega
      exact_mod_cast this
    obtain ⟨v, v1, v2⟩ := hr (d - 1) (by omega) (by omega)
    have hsub : (((d - 1 : Nat)) : Rat) = d - 1 := by rw [Nat.cast_sub (by omega)]; norm_num
    refine ⟨x, bin, d - 1, v, p1, v1, p2.lt, v2, by rw [hsub]; linarith, ?_, q1, q2⟩
    rw [hsub]
    rcases hstop with h' | h'
    · exact absurd h' hTd
    · rw [max_eq_left hd1] at h'
      have : (d : Rat) ≤ vs.length := by exact_mod_cast hle
      nlinarith

/-- C33. Percentiles do not decrease by more than the tolerance; between whole ranks they do not decrease at all. -/
theorem percentile_monotone_partial {b : Nat} (hb : 0 < b) (hb' : b < 2 ^ 32 - 1) {low high : Rat} (hlh : low < high) {scal grow : Bool} (h1 : ¬(scal = true ∧ grow = true))
    {h0 h : H} (h0e : new id b low high scal grow = .ok h0) {M : Nat} (ops : List Op) (hf : Fits h0 M ops) (he : run id h0 ops = .ok h)
    {eps : Rat} (heps : 0 < eps) {p q : Rat} (hpq : p ≤ q) (hq1 : q ≤ 1) (hp0 : eps ≤ p * (vals ops).length) :
    ∃ x y, percentile id eps h p = .ok x ∧ percentile id eps h q = .ok y ∧ x ≤ y + eps * (vals ops).length * h.width ∧
      ((∃ m : Nat, p * (vals ops).length = m) → eps * (vals ops).length ≤ 1 → x ≤ y) := by
  obtain ⟨h0', e0, hI0, n0, l0, g0, s0, w0⟩ := new_ok hb hlh h1
  rw [h0e] at e0
  cases e0
  obtain ⟨h', e, hI, hR, -⟩ := run_ok hI0 (by rw [n0]; omega) ops hf
  rw [he] at e
  cases e
  generalize vals ops = vs at *
  have hN : (0 : Rat) < vs.length := by
    rcases Nat.eq_zero_or_pos vs.length with h0 | h0
    · rw [h0] at hp0; push_cast at hp0; linarith
    · exact_mod_cast h0
  have hT : p * vs.length ≤ q * vs.length := mul_le_mul_of_nonneg_right hpq (le_of_lt hN)
  obtain ⟨x, bin, p1, p2⟩ := perc_at hI heps (p := p) (le_trans hpq hq1) hp0
  obtain ⟨y, bin', r1, r2⟩ := perc_at hI heps (p := q) hq1 (le_trans hp0 hT)
  obtain ⟨a1, a2, a3⟩ := p2.bounds hI.width heps
  obtain ⟨b1, b2, b3⟩ := r2.bounds hI.width heps
  have hw := hI.width
  have hen : 0 ≤ eps * vs.length * h.width := mul_nonneg (le_of_lt (mul_pos heps hN)) (le_of_lt hw)
  refine ⟨x, y, p1, r1, ?_, ?_⟩
  · rcases p2.mono r2 hw hT with h' | ⟨-, h'⟩
    · have : (bin : Rat) + 1 ≤ bin' := by exact_mod_cast h'
      nlinarith
    · linarith
  · rintro ⟨m, hm⟩ hle1
    rcases p2.mono r2 hw hT with h' | ⟨-, h'⟩
    · have hbb : (bin : Rat) + 1 ≤ bin' := by exact_mod_cast h'
      have hle : vs.countP (fun v => decide (key h.low h.width h.n v < bin + 1)) ≤ vs.length := List.countP_le_length
      have hN1 : (1 : Rat) ≤ vs.length := by
        have : (0 : Nat) < vs.length := by exact_mod_cast hN
        exact_mod_cast this
      have hstop := p2.stop
      rw [hm, gt_nat (by
        have : ((vs.countP (fun v => decide (key h.low h.width h.n v < bin + 1)) : Nat) : Rat) ≤ vs.length := by exact_mod_cast hle
        nlinarith) (by nlinarith), decide_eq_false_iff_not] at hstop
      have := a3 (by rw [hm]; exact_mod_cast not_lt.1 hstop)
      nlinarith
    · exact h'

/-- The hypotheses of the three theorems: four values in three of four bins; the median is in the second bin. -/
example : (new id 4 0 4 false false >>= (run id · [.add 1, .add (7 / 2), .add (1 / 2), .add 3])).map (fun h => (h.bins, percentile id (1 / 10 ^ 12) h (2 / 4), percentile id (1 / 10 ^ 12) h 1)) =
    .ok ([1, 1, 0, 2], .ok 2, .ok 4) := by decide +kernel

/-- C33. The lower end of the percentiles is wrong if the first bin is empty: then `percentile(0)` is 0, outside of the range, and larger than `percentile(1)`. -/
theorem percentile_zero_false : (new id 2 (-20) (-10) false false >>= (run id · [.add (-11)])).map
    (fun h => (h.bins, percentile id (1 / 10 ^ 12) h 0, percentile id (1 / 10 ^ 12) h 1)) = .ok ([0, 1], .ok 0, .ok (-10)) := by decide +kernel

/-- C33. Just above a whole rank percentiles may decrease, because the comparison there has a tolerance: of 3 values in bins with 1 and 2 of them. -/
theorem percentile_monotone_false : ∃ h x y, (new id 2 0 2 false false >>= (run id · [.add 0, .add 1, .add 1])) = .ok h ∧
    percentile id (1 / 10 ^ 12) h ((1 + 9 / 10 ^ 13) / 3) = .ok x ∧ percentile id (1 / 10 ^ 12) h ((1 + 10 / 10 ^ 13) / 3) = .ok y ∧ y < x := by
  refine ⟨⟨false, false, 2, 0, 2, 1, [1, 2], 0, ⟨3, 2, 2, some 0, some 1⟩⟩, 1 + 9 / 10 ^ 13, 1 + 5 / 10 ^ 13, ?_⟩
  decide +kernel

/-- C33. With doubles too, a percentile between 0 and 1 never reads outside the bins and never aborts, whatever the bins are. -/
theorem percentile_safe_partial (R : Rounding) (eps : Rat) {h : H} (hn : 0 < h.bins.length) (hs : h.bins.sum = h.st.number) {p : Rat} (h0 : 0 ≤ p) (h1 : p ≤ 1) :
    ∃ x, percentile R.rnd eps h p = .ok x := by
  obtain ⟨b, -, -, -, -, e⟩ := perc_any R.rnd eps h0 h1 hn (by
    rw [hs, ← R.exact (R.isDouble (h.st.number : Rat))]
    apply R.mono
    rw [R.exact (R.isDouble _)]
    have : 0 ≤ R.rnd (h.st.number : Rat) := R.ge_of_double (by have := isDouble_int 0 (by norm_num); exact_mod_cast this) (by exact_mod_cast Nat.zero_le _)
    nlinarith)
  exact ⟨_, e⟩

example : (new ieee.rnd 3 0 1 false false >>= (run ieee.rnd · [.add (1 / 2), .add (1 / 4)])).map (fun h => (decide (0 < h.bins.length), decide (h.bins.sum = h.st.number))) = .ok (true, true) := by
  decide +kernel

end Verif.Histo
