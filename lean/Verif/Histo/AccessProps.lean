import Verif.Histo.Access
import Verif.Histo.Props
import Verif.Histo.Props2
import Verif.LogHisto.Props

/-! # C236: what the access functions of histograms say -/

namespace Verif.Histo

open Verif

theorem countAt_in {h : H} {i c : Nat} (hi : i < h.n) (hc : h.bins[i]? = some c) : countAt h i = .ok c := by
  unfold countAt PQ.rd
  rw [show decide (i ≤ h.n) = true from decide_eq_true (by omega), Res.require_true, Res.bind_ok, hc]

theorem countAt_out {h : H} {i : Nat} (hi : h.n < i) : countAt h i = .abort := by
  unfold countAt
  rw [show decide (i ≤ h.n) = false from decide_eq_false (by omega)]
  rfl

theorem bins_tile (h : H) (hs : h.low + h.n * h.width = h.high) (hn : 0 < h.n) : binlow id h 0 = h.low ∧ (h.n < 2 ^ 32 → binhigh id h (h.n - 1) = h.high) ∧
    ∀ i, i + 1 < 2 ^ 32 → binhigh id h i = binlow id h (i + 1) ∧ binWidth h = binhigh id h i - binlow id h i ∧ 2 * bincenter id h i = binlow id h i + binhigh id h i := by
  refine ⟨?_, fun hb => ?_, fun i hi => ⟨?_, ?_, ?_⟩⟩
  · unfold binlow
    simp
  · unfold binhigh
    rw [Nat.mod_eq_of_lt (by omega), show h.n - 1 + 1 = h.n by omega]
    exact hs
  · unfold binhigh binlow
    rw [Nat.mod_eq_of_lt hi]
  · unfold binhigh binlow binWidth
    rw [Nat.mod_eq_of_lt hi]
    simp only [id]
    push_cast
    ring
  · unfold binhigh binlow bincenter
    rw [Nat.mod_eq_of_lt hi]
    simp only [id]
    push_cast
    ring

/-- C236. In exact arithmetic, whatever was added to a uniform histogram: `h[i]` is the number of values from `binlow(i)` to below `binhigh(i)` (with everything beyond in the end
bins), the bins lie side by side from `low()` to `high()` and are `binWidth()` wide, `bincenter(i)` is in the middle, and an index beyond the number of bins is refused. Missing: the
index that is the number of bins, see `access_end_false`. -/
theorem access_uniform_partial {b : Nat} (hb : 0 < b) (hb' : b < 2 ^ 32 - 1) {low high : Rat} (hlh : low < high) {scal grow : Bool} (h1 : ¬(scal = true ∧ grow = true))
    {h0 : H} (h0e : new id b low high scal grow = .ok h0) {M : Nat} (ops : List Op) (hf : Fits h0 M ops) :
    ∃ h, run id h0 ops = .ok h ∧
      (∀ i, i < h.n → i + 1 < 2 ^ 32 → countAt h i = .ok ((vals ops).countP fun v => decide ((i = 0 ∨ binlow id h i ≤ v) ∧ (i + 1 = h.n ∨ v < binhigh id h i)))) ∧
      (∀ i, h.n < i → countAt h i = .abort) ∧
      binlow id h 0 = h.low ∧ (h.n < 2 ^ 32 → binhigh id h (h.n - 1) = h.high) ∧
      ∀ i, i + 1 < 2 ^ 32 → binhigh id h i = binlow id h (i + 1) ∧ binWidth h = binhigh id h i - binlow id h i ∧ 2 * bincenter id h i = binlow id h i + binhigh id h i := by
  obtain ⟨h, e, hl, hw, hs, hc, -, -, h2, h3, -⟩ := histogram_counts_partial hb hb' hlh h1 h0e ops hf
  have hn : 0 < h.n := by
    rcases Nat.eq_zero_or_pos h.n with h0 | h0
    · rw [h0] at hs
      have : h.low = h.high := by rw [← hs]; simp
      linarith
    · exact h0
  refine ⟨h, e, fun i hi hi' => ?_, fun i hi => countAt_out hi, bins_tile h hs hn⟩
  rw [countAt_in hi (hc i hi)]
  congr 1
  apply List.countP_congr
  intro v _
  unfold inBin binlow binhigh
  rw [Nat.mod_eq_of_lt hi', decide_eq_true_iff, decide_eq_true_iff]
  simp only [id]
  push_cast
  exact Iff.rfl

/-- C236. The index that is the number of bins passes the check, and memory behind the bins is read, of every histogram. -/
theorem access_end_false {b : Nat} (hb : 0 < b) (hb' : b < 2 ^ 32 - 1) {low high : Rat} (hlh : low < high) {scal grow : Bool} (h1 : ¬(scal = true ∧ grow = true))
    {h0 : H} (h0e : new id b low high scal grow = .ok h0) {M : Nat} (ops : List Op) (hf : Fits h0 M ops) : ∃ h, run id h0 ops = .ok h ∧ countAt h h.n = .ub := by
  obtain ⟨h, e, hl, -⟩ := histogram_counts_partial hb hb' hlh h1 h0e ops hf
  refine ⟨h, e, ?_⟩
  unfold countAt PQ.rd
  rw [show decide (h.n ≤ h.n) = true from decide_eq_true (by omega), Res.require_true, Res.bind_ok, List.getElem?_eq_none (by omega)]

/-- C236. In exact arithmetic `value(i)` is the sum of the data added with an index in bin `i`, `h[i]` their number; an index beyond the number of bins is refused. For even numbers of
bins (C34); missing again: the index that is the number of bins, which is read behind the array. -/
theorem access_accum_partial {b : Nat} (hb : 0 < b) (hb' : b < 2 ^ 32) (heven : b % 2 = 0) {low high : Rat} (hlh : low < high) {scal grow : Bool} (h1 : ¬(scal = true ∧ grow = true)) (ops : List Op2) :
    ∃ a0 a, newA id b low high scal grow = .ok a0 ∧ runA id a0 ops = .ok a ∧
      (∀ k, k < b → k + 1 < 2 ^ 32 → ∃ l : List Rat, l = ((pairs ops).filter fun p => decide ((k = 0 ∨ binlow id a.h k ≤ p.1) ∧ (k + 1 = b ∨ p.1 < binhigh id a.h k))).map Prod.snd ∧
        valueAt a k = .ok l.sum ∧ countAt a.h k = .ok l.length) ∧
      (∀ k, b < k → valueAt a k = .abort ∧ countAt a.h k = .abort) ∧ valueAt a b = .ub := by
  obtain ⟨a0, a, e0, e, hn, hl, hv, hw, hs, -, -, hk, -⟩ := accum_sums_partial hb hb' heven hlh h1 ops
  refine ⟨a0, a, e0, e, fun k hk' hk2 => ?_, fun k hk' => ⟨?_, countAt_out (by omega)⟩, ?_⟩
  · refine ⟨_, rfl, ?_⟩
    have hd : dataIn a.h.low a.h.width b k (pairs ops) = ((pairs ops).filter fun p => decide ((k = 0 ∨ binlow id a.h k ≤ p.1) ∧ (k + 1 = b ∨ p.1 < binhigh id a.h k))).map Prod.snd := by
      unfold dataIn
      congr 1
      apply List.filter_congr
      intro p _
      unfold inBin binlow binhigh
      rw [Nat.mod_eq_of_lt hk2]
      simp only [id]
      push_cast
      rfl
    rw [← hd]
    refine ⟨?_, countAt_in (by omega) (hk k hk').2⟩
    unfold valueAt PQ.rd
    rw [show decide (k ≤ a.h.n) = true from decide_eq_true (by omega), Res.require_true, Res.bind_ok, (hk k hk').1]
  · unfold valueAt
    rw [show decide (k ≤ a.h.n) = false from decide_eq_false (by omega)]
    rfl
  · unfold valueAt PQ.rd
    rw [show decide (b ≤ a.h.n) = true from decide_eq_true (by omega), Res.require_true, Res.bind_ok, List.getElem?_eq_none (by omega)]

/-- C236. `numGrows()` does not tell: of a histogram that has grown it is 0, and the growth is counted by `numRescales()`. -/
theorem access_grows_false : ∃ h0 h, new id 2 0 2 false true = .ok h0 ∧ run id h0 [.add 5] = .ok h ∧ h0.n < h.n ∧ numGrows h = 0 ∧ numRescales h = 1 := by
  refine ⟨_, ⟨false, true, 6, 0, 6, 1, [0, 0, 0, 0, 0, 1], 1, Stats.add id Stats.reset 5⟩, rfl, by decide +kernel, by decide +kernel, rfl, rfl⟩

end Verif.Histo

namespace Verif.LogHisto

open Verif Histo

/-- C236. The same for logarithmic histograms, where the bins have equal ratio: `h[i]` is the number of values from `binlow(i)` to below `binhigh(i)`, `binWidth(i)` the distance of
the two, and an index beyond the number of bins is refused; the index that is the number of bins is read behind the array. -/
theorem access_log_partial {b : Nat} (hb : 0 < b) (hb' : b < 2 ^ 32 - 1) {small high : ℝ} (hs : 0 < small) (hh : small < high) {scal : Bool} {h0 : L}
    (h0e : new exact b small high scal = .ok h0) (ops : List Op) (hl : ∀ o ∈ ops, Legal o)
    (hnear : scal = false → ∀ o ∈ ops, ∀ v ∈ given o, Near small high (2 * ((b + 1) / 2)) v) :
    ∃ h, Runs exact h0 ops h ∧
      (∀ i, i < h.n → countAt h i = .ok ((vals ops).countP fun v => @decide ((i = 0 ∨ binlow exact h i ≤ v) ∧ (i + 1 = h.n ∨ v < binhigh exact h i)) (Classical.propDecidable _))) ∧
      (∀ i, h.n < i → countAt h i = .abort) ∧ countAt h h.n = .ub ∧
      binlow exact h 0 = h.small ∧ binhigh exact h (h.n - 1) = h.high ∧
      (∀ i, i < h.n → binhigh exact h i = binlow exact h (i + 1) ∧ binWidth exact h i = binhigh exact h i - binlow exact h i) := by
  obtain ⟨h, hr, hn, hlen, hc, -, -, he, hsm, hle, hge, -⟩ := log_counts_partial hb hb' hs hh h0e ops hl hnear
  have hn0 : 0 < h.n := by omega
  have hlt : ∀ i, i < h.n → (i + 1) % 2 ^ 32 = i + 1 := fun i hi => Nat.mod_eq_of_lt (by omega)
  refine ⟨h, hr, fun i hi => ?_, fun i hi => ?_, ?_, ?_, ?_, fun i hi => ⟨?_, ?_⟩⟩
  · unfold countAt PQ.rd
    rw [show decide (i ≤ h.n) = true from decide_eq_true (by omega), Res.require_true, Res.bind_ok, hc i hi]
    unfold countIn inBin
    rw [(he i hi).1, (he i hi).2]
  · unfold countAt
    rw [show decide (i ≤ h.n) = false from decide_eq_false (by omega)]
    rfl
  · unfold countAt PQ.rd
    rw [show decide (h.n ≤ h.n) = true from decide_eq_true (by omega), Res.require_true, Res.bind_ok, List.getElem?_eq_none (by omega)]
  · rw [(he 0 hn0).1]
    unfold edge
    simp
  · rw [(he (h.n - 1) (by omega)).2, show h.n - 1 + 1 = h.n by omega]
    unfold edge
    have : (h.n : ℝ) ≠ 0 := by exact_mod_cast hn0.ne'
    rw [div_self this, Real.rpow_one, mul_div_cancel₀ _ hsm.ne']
  · unfold binhigh binlow
    rw [hlt i hi]
  · unfold binhigh binlow binWidth
    rfl

/-- C236. `binWidth()` of a logarithmic histogram is not `binWidth(0)`, as the interface says, but more by `low()`. -/
theorem access_width_false {b : Nat} (hb : 0 < b) (hb' : b < 2 ^ 32 - 1) {small high : ℝ} (hs : 0 < small) (hh : small < high) {scal : Bool} {h0 : L}
    (h0e : new exact b small high scal = .ok h0) : binWidth0 exact h0 = binWidth exact h0 0 + h0.small ∧ 0 < h0.small := by
  obtain ⟨h0', e0, hI0, n0, s0, -, -⟩ := new_ok hb hb' hs hh scal
  rw [h0e] at e0
  cases e0
  refine ⟨?_, by rw [s0]; exact hs⟩
  unfold binWidth0 binWidth binOffset
  simp [exact]

/-! ## The hypotheses can be met -/

example : ∃ h0, Histo.new id 4 0 4 false true = .ok h0 ∧ Fits h0 1000 [.add (-7), .add (5 / 2), .add 900] := by
  refine ⟨_, rfl, fun _ => ⟨by decide, by decide, ?_⟩⟩
  intro v hv
  simp only [List.mem_cons, Histo.Op.add.injEq, List.not_mem_nil, or_false] at hv
  rcases hv with rfl | rfl | rfl <;> decide +kernel

example : ∃ h0, new exact 3 1 16 true = .ok h0 ∧ ∀ o ∈ [Op.add 2, .add (1 / 100)], Legal o := by
  obtain ⟨h0, e, -⟩ := new_ok (b := 3) (by norm_num) (by norm_num) (small := 1) (high := 16) (by norm_num) (by norm_num) true
  refine ⟨h0, e, fun o ho => ?_⟩
  simp only [List.mem_cons, List.not_mem_nil, or_false] at ho
  rcases ho with rfl | rfl <;> simp [Legal]

end Verif.LogHisto
