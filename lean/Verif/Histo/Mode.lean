import Verif.Histo.Props
import Verif.LogHisto.Lemmas2

/-! # The mode of a uniform histogram (C106) -/

namespace Verif.Histo

open Verif

/-- `mode`, `StatsHistogram.cpp:188-199`. -/
def mode (r : Rat → Rat) (h : H) : Res Rat := do
  let b ← PQ.rd h.bins 0
  pure (r (h.low + r (r (modeBin (h.bins.drop 1) 1 b 0 + 1 / 2) * h.width)))

/-- C106. In exact arithmetic the mode of a uniform histogram is the middle of a bin that no other bin has more values than, and of these the last. -/
theorem mode_partial {b : Nat} (hb : 0 < b) (hb' : b < 2 ^ 32 - 1) {low high : Rat} (hlh : low < high) {scal grow : Bool} (h1 : ¬(scal = true ∧ grow = true))
    {h0 h : H} (h0e : new id b low high scal grow = .ok h0) {M : Nat} (ops : List Op) (hf : Fits h0 M ops) (he : run id h0 ops = .ok h) :
    ∃ i, i < h.n ∧ mode id h = .ok (h.low + (i + 1 / 2) * h.width) ∧
      ∀ j, j < h.n → (vals ops).countP (inBin h.low h.width h.n j) ≤ (vals ops).countP (inBin h.low h.width h.n i) ∧
        (i < j → (vals ops).countP (inBin h.low h.width h.n j) < (vals ops).countP (inBin h.low h.width h.n i)) := by
  obtain ⟨h', e, hlen, -, -, hc, -⟩ := histogram_counts_partial hb hb' hlh h1 h0e ops hf
  rw [he] at e
  cases e
  obtain ⟨h0', e0, hI0, n0, -⟩ := new_ok hb hlh h1
  rw [h0e] at e0
  cases e0
  obtain ⟨h', e, hI, -⟩ := run_ok hI0 (by rw [n0]; omega) ops hf
  rw [he] at e
  cases e
  have hn : 0 < h.bins.length := by rw [hlen]; exact hI.n
  obtain ⟨y, g1, g2⟩ := LogHisto.modeBin_top hn
  have hi := (List.getElem?_eq_some_iff.1 g1).1
  rw [hlen] at hi
  refine ⟨_, hi, ?_, fun j hj => ?_⟩
  · unfold mode
    rw [PQ.rd_eq 0 _ _ hn, Res.bind_ok]
    rfl
  · have := g2 j _ (hc j hj)
    rw [hc _ hi, Option.some.injEq] at g1
    rw [g1]
    exact this

/-- The hypotheses of `mode_partial`, and the result: two bins with two values each. -/
example : (new id 4 0 4 false false >>= (run id · [.add 1, .add (7 / 2), .add (3 / 2), .add 3])).map (fun h => (h.bins, mode id h)) = .ok ([0, 2, 0, 2], .ok (7 / 2)) := by
  decide +kernel

end Verif.Histo
