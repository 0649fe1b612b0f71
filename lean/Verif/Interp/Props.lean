import Verif.Interp.Lemmas
import Verif.Interp.Estimator

/-! # Properties of the interpolation search (C22, C77) -/

namespace Verif.Interp

variable {α : Type}

/-- **C22.** On every partitioned range, with every estimator that stays within its bounds, for all step counts
that are not both zero, the search returns the lower bound: it reads only inside the range and ends. -/
theorem search_is_lower_bound (p : Params) (hp : 0 < p.isteps + p.bsteps) (lt : α → α → Bool)
    (est : α → α → α → Nat → Res Nat) (a : List α) (v : α) (hs : Partitioned lt a v)
    (hest : InRange lt est a v) :
    ∃ r, search p lt est a v = .ok r ∧ IsLowerBound lt a v r := by
  obtain ⟨r, h⟩ := exists_lb a hs
  exact ⟨r, search_ok hp h hest, h⟩

/-- Sorted ranges are partitioned for every target. -/
theorem sorted_partitioned {lt : α → α → Bool} (sw : StrictWeak lt) {a : List α} (hs : Sorted lt a) (v : α) :
    Partitioned lt a v := by
  intro i j x y hij hi hj hy
  cases hx : lt x v
  · have := sw.incomp y x v (hs i j x y hij hi hj) hx
    rw [this] at hy; cases hy
  · rfl

/-- **C22** for the instance the library exports, on sorted ranges; the answer does not depend on the estimator
and is the only lower bound. -/
theorem interpolation_search_sorted (lt : α → α → Bool) (sw : StrictWeak lt) (est : α → α → α → Nat → Res Nat)
    (a : List α) (hs : Sorted lt a) (v : α) (hest : InRange lt est a v) :
    ∃ r, search defaults lt est a v = .ok r ∧ IsLowerBound lt a v r ∧ ∀ r', IsLowerBound lt a v r' → r' = r := by
  obtain ⟨r, h1, h2⟩ := search_is_lower_bound defaults (by decide) lt est a v (sorted_partitioned sw hs v) hest
  refine ⟨r, h1, h2, ?_⟩
  intro r' h'
  have h3 := search_ok (p := defaults) (by decide) h' hest
  rw [h1] at h3
  exact (Res.ok.inj h3).symm

theorem ltInt_weak : StrictWeak ltInt :=
  ⟨by simp [ltInt], by simp only [ltInt, decide_eq_true_eq]; omega, by simp only [ltInt, decide_eq_false_iff_not]; omega⟩

/-- **C77, what holds.** `interpolationLowerBound(begin, end, v)` over integers returns the lower bound for every
sorted range of at most `2^53` elements whose values lie close enough together that their differences are
representable, with every way of rounding to nearest. Missing: ranges with larger differences. -/
theorem default_search_partial (F : Flt.Rounding) (top : Int) (a : List Int) (hs : Sorted ltInt a) (v : Int)
    (hlen : a.length ≤ 2 ^ 53) (hd : ∀ x ∈ a, ∀ y ∈ a, y - x ≤ top) :
    ∃ r, search defaults ltInt (estimate F top) a v = .ok r ∧ IsLowerBound ltInt a v r := by
  apply search_is_lower_bound defaults (by decide) ltInt _ a v (sorted_partitioned ltInt_weak hs v)
  intro f l m hf hl h1 h2 hm
  simp only [ltInt, decide_eq_true_eq, decide_eq_false_iff_not] at h1 h2
  exact estimate_in_range F top v f l m h1 (by omega) (hd f hf l hl) (by omega)

/-- **C77, refuted.** When the last element exceeds the first by more than the largest value of the type, every search
for a value above the first and at most the last is undefined behaviour: `last - first` overflows
(`InterpolationSearch.hpp:43`). -/
theorem default_search_overflow (F : Flt.Rounding) (top : Int) (a : List Int) (v first last : Int) (hf : a.head? = some first)
    (hl : a.getLast? = some last) (h1 : first < v) (h2 : v ≤ last) (h3 : last - first > top) :
    search defaults ltInt (estimate F top) a v = .ub := by
  have hne : a.length ≠ 0 := by
    intro h
    rw [List.length_eq_zero_iff.1 h] at hf
    cases hf
  have e1 : rd a 0 = .ok first := by
    rw [List.head?_eq_getElem?] at hf
    simp [rd, hf]
  have e2 : rdBefore a a.length = .ok last := by
    rw [List.getLast?_eq_getElem?] at hl
    simp [rdBefore, hne, rd, hl]
  have b1 : ltInt first v = true := by simpa [ltInt] using h1
  have b2 : ltInt last v = false := by simpa [ltInt] using h2
  simp [search, hne, e1, e2, b1, b2, mainLoop, defaults, interpSteps, estimate, h3, Nat.pos_of_ne_zero hne]

/-- The hypotheses of `default_search_partial` and of `default_search_overflow` hold for 32-bit integers here. -/
example : (∀ x ∈ [-1073741824, 0, 5, 1073741823], ∀ y ∈ [-1073741824, 0, 5, (1073741823 : Int)], y - x ≤ 2147483647) ∧
    (2000000000 : Int) - (-2000000000) > 2147483647 := by decide

/-- The condition on the step counts is needed: with none of either kind a long range is never shortened. -/
theorem no_steps_never_ends (lt : α → α → Bool) (est : α → α → α → Nat → Res Nat) (below : Nat) (a : List α) (v : α)
    (fuel b e len : Nat) (h : below < len) : mainLoop ⟨0, 0, below⟩ lt est a v fuel b e len = .ub := by
  induction fuel with
  | zero => rfl
  | succ fuel ih =>
    simp only [mainLoop, show len > 0 by omega, if_true, interpSteps, Res.bind_ok, show ¬ len = 0 by omega, if_false,
      show ¬ len ≤ below by omega, binPhase, binSteps, repairB, repairE, Bool.false_eq_true, Res.pure_eq, ih]

/-- The bound on the estimator is needed: one step too far reads outside the range. -/
example : search defaults (fun x y : Nat => decide (x < y)) (fun _ _ _ m => .ok (m + 1)) [1, 2, 3] 2 = .ub := by decide

/-- A range with duplicates, the worst estimator (always the first position) and a threshold of zero. -/
example : search ⟨2, 4, 0⟩ (fun x y : Nat => decide (x < y)) (fun _ _ _ _ => .ok 0) [1, 3, 3, 3, 5, 7, 7, 9] 7 = .ok 5 := by decide

example : Sorted (fun x y : Nat => decide (x < y)) [1, 3, 3, 5] ∧ StrictWeak (fun x y : Nat => decide (x < y)) := by
  refine ⟨?_, ?_⟩
  · intro i j x y hij hi hj
    have hjl : j < 4 := by
      have := List.getElem?_eq_some_iff.1 hj
      simpa using this.1
    have : ∀ j : Fin 4, ∀ i : Fin 4, i < j → ¬ [1, 3, 3, 5][j] < [1, 3, 3, 5][i] := by decide
    have h := this ⟨j, hjl⟩ ⟨i, by omega⟩ hij
    have e1 := (List.getElem?_eq_some_iff.1 hi).2
    have e2 := (List.getElem?_eq_some_iff.1 hj).2
    exact decide_eq_false (fun hyx : y < x => h (Nat.lt_of_le_of_lt (Nat.le_of_eq e2) (Nat.lt_of_lt_of_le hyx (Nat.le_of_eq e1.symm))))
  · refine ⟨by simp, ?_, ?_⟩ <;> · intro x y z; simp; omega

end Verif.Interp
