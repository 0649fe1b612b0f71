import Verif.Stats.Perl
import Verif.Stats.Props

/-! # C211: statistics in perl -/

namespace Verif.Stats.Perl

open Verif

/-- The fields are those of the C++ class, with the large numbers for the infinities. -/
def Agrees (r : Rat → Rat) (s : St) (t : Stats.St) : Prop :=
  s.count = t.number ∧ s.sum = t.sum ∧ s.sumsq = t.sumsq ∧ s.max = t.hi.getD (-big r) ∧ s.min = t.lo.getD (big r)

theorem agrees_add (r : Rat → Rat) (s : St) (t : Stats.St) (v : Rat) (h : Agrees r s t) (h1 : -big r ≤ v) (h2 : v ≤ big r) : Agrees r (add r s v) (Stats.add r t v) := by
  obtain ⟨a, b, c, d, e⟩ := h
  refine ⟨?_, ?_, ?_, ?_, ?_⟩
  · simp [add, Stats.add, a]
  · simp [add, Stats.add, b]
  · simp [add, Stats.add, c]
  · simp only [add, Stats.add, d]
    cases t.hi with
    | none =>
      simp only [Stats.gtHi, Option.getD_none, if_true, Option.getD_some]
      split
      · rfl
      · linarith
    | some m =>
      simp only [Stats.gtHi, Option.getD_some, decide_eq_true_eq]
      split <;> rfl
  · simp only [add, Stats.add, e]
    cases t.lo with
    | none =>
      simp only [Stats.ltLo, Option.getD_none, if_true, Option.getD_some]
      split
      · rfl
      · linarith
    | some m =>
      simp only [Stats.ltLo, Option.getD_some, decide_eq_true_eq]
      split <;> rfl

theorem agrees_all (r : Rat → Rat) (vs : List Rat) : ∀ (s : St) (h : Stats.Hist), Agrees r s (Stats.eval r h) → (∀ v ∈ vs, -big r ≤ v ∧ v ≤ big r) →
    Agrees r (addAll r s vs) (Stats.eval r (Stats.adds h vs)) := by
  induction vs with
  | nil => intro s h ha _; exact ha
  | cons v vs ih =>
    intro s h ha hv
    obtain ⟨h1, h2⟩ := hv v List.mem_cons_self
    exact ih (add r s v) (.add h v) (agrees_add r s _ v ha h1 h2) (fun w hw => hv w (List.mem_cons_of_mem _ hw))

theorem agrees_new (r : Rat → Rat) : Agrees r (new r) (Stats.eval r .new) := ⟨rfl, rfl, rfl, rfl, rfl⟩

/-- C211: with exact arithmetic, for values from -1e100 to 1e100: the count, the smallest and the largest value, the mean, and the standard deviation is the root of the mean squared difference from the mean. -/
theorem stats_partial (vs : List Rat) (hne : vs ≠ []) (hv : ∀ v ∈ vs, -10 ^ 100 ≤ v ∧ v ≤ 10 ^ 100) :
    let s := addAll id (new id) vs
    s.count = vs.length ∧ (s.max ∈ vs ∧ ∀ v ∈ vs, v ≤ s.max) ∧ (s.min ∈ vs ∧ ∀ v ∈ vs, s.min ≤ v) ∧
      mean id s = some (vs.sum / vs.length) ∧ stddev id s = .root ((vs.map fun v => (v - vs.sum / vs.length) ^ 2).sum / vs.length) := by
  intro s
  have hvs : Stats.values (Stats.adds .new vs) = vs := by rw [Stats.values_adds]; rfl
  have hne' : Stats.values (Stats.adds .new vs) ≠ [] := by rw [hvs]; exact hne
  obtain ⟨a, b, c, d, e⟩ := agrees_all id vs (new id) .new (agrees_new id) hv
  obtain ⟨f1, f2, f3, f4, f5⟩ := Stats.stats_values (Stats.adds .new vs)
  obtain ⟨g1, g2⟩ := Stats.stats_moments (Stats.adds .new vs) hne'
  have g3 := (Stats.stats_ranges (Stats.adds .new vs)).1
  rw [hvs] at f1 f4 f5 g1 g2
  have hlen : 0 < vs.length := List.length_pos_iff.2 hne
  have hn : (Stats.eval id (Stats.adds .new vs)).number ≠ 0 := by omega
  have hc : s.count ≠ 0 := by show (addAll id (new id) vs).count ≠ 0; rw [a]; exact hn
  have hm : mean id s = some (vs.sum / vs.length) := by
    unfold mean
    rw [if_neg hc]
    have : Stats.mean id (Stats.eval id (Stats.adds .new vs)) = (addAll id (new id) vs).sum / ((addAll id (new id) vs).count : Rat) := by
      unfold Stats.mean; rw [if_neg hn, a, b]; rfl
    rw [g1] at this
    exact congrArg some this.symm
  refine ⟨a.trans f1, ?_, ?_, hm, ?_⟩
  · show (addAll id (new id) vs).max ∈ vs ∧ ∀ v ∈ vs, v ≤ (addAll id (new id) vs).max
    rw [d]
    cases hh : (Stats.eval id (Stats.adds .new vs)).hi with
    | none => rw [hh] at f5; exact absurd f5 hne
    | some m => rw [hh] at f5; exact f5
  · show (addAll id (new id) vs).min ∈ vs ∧ ∀ v ∈ vs, (addAll id (new id) vs).min ≤ v
    rw [e]
    cases hh : (Stats.eval id (Stats.adds .new vs)).lo with
    | none => rw [hh] at f4; exact absurd f4 hne
    | some m => rw [hh] at f4; exact f4
  · have hvar : Stats.variance id (Stats.eval id (Stats.adds .new vs)) = s.sumsq / (s.count : Rat) - vs.sum / vs.length * (vs.sum / vs.length) := by
      unfold Stats.variance
      rw [if_neg hn, g1]
      show _ = (addAll id (new id) vs).sumsq / ((addAll id (new id) vs).count : Rat) - _
      rw [a, c]
      rfl
    have hv2 : Stats.variance id (Stats.eval id (Stats.adds .new vs)) = (vs.map fun v => (v - vs.sum / vs.length) ^ 2).sum / vs.length := by
      rw [g2]; unfold Stats.avg; rw [List.length_map]
    unfold stddev
    rw [hm]
    show (if s.sumsq / (s.count : Rat) - vs.sum / vs.length * (vs.sum / vs.length) < 0 then Dev.died else .root (s.sumsq / (s.count : Rat) - vs.sum / vs.length * (vs.sum / vs.length))) = _
    rw [← hvar, if_neg (not_lt.2 g3), hv2]

example : ∀ v ∈ [(1 : Rat), -2, 7 / 2], -10 ^ 100 ≤ v ∧ v ≤ 10 ^ 100 := by
  intro v hv
  simp at hv
  rcases hv with rfl | rfl | rfl <;> norm_num

/-- C211: with doubles, for such values, the perl class and the C++ class have the same numbers to the last bit. -/
theorem same_as_cpp (R : Flt.Rounding) (vs : List Rat) (hne : vs ≠ []) (hv : ∀ v ∈ vs, -R.rnd (10 ^ 100) ≤ v ∧ v ≤ R.rnd (10 ^ 100)) :
    let s := addAll R.rnd (new R.rnd) vs
    let t := Stats.eval R.rnd (Stats.adds .new vs)
    s.count = t.number ∧ s.sum = t.sum ∧ s.sumsq = t.sumsq ∧ some s.max = t.hi ∧ some s.min = t.lo ∧ mean R.rnd s = some (Stats.mean R.rnd t) ∧
      stddev R.rnd s = if Stats.variance R.rnd t < 0 then .died else .root (Stats.variance R.rnd t) := by
  intro s t
  obtain ⟨a, b, c, d, e⟩ := agrees_all R.rnd vs (new R.rnd) .new (agrees_new R.rnd) hv
  obtain ⟨f1, f2, f3⟩ := Stats.eval_any R.rnd (Stats.adds .new vs)
  have hvs : Stats.values (Stats.adds .new vs) = vs := by rw [Stats.values_adds]; rfl
  rw [hvs] at f1 f2 f3
  have hlen : 0 < vs.length := List.length_pos_iff.2 hne
  have hn : t.number ≠ 0 := by show (Stats.eval R.rnd (Stats.adds .new vs)).number ≠ 0; omega
  have hc : s.count ≠ 0 := by show (addAll R.rnd (new R.rnd) vs).count ≠ 0; rw [a]; exact hn
  have hm : mean R.rnd s = some (Stats.mean R.rnd t) := by
    unfold mean Stats.mean
    rw [if_neg hc, if_neg hn]
    show some (R.rnd ((addAll R.rnd (new R.rnd) vs).sum / R.rnd (addAll R.rnd (new R.rnd) vs).count)) = _
    rw [a, b]
  refine ⟨a, b, c, ?_, ?_, hm, ?_⟩
  · show some (addAll R.rnd (new R.rnd) vs).max = (Stats.eval R.rnd (Stats.adds .new vs)).hi
    rw [d]
    cases hh : (Stats.eval R.rnd (Stats.adds .new vs)).hi with
    | none => rw [hh] at f3; exact absurd f3 hne
    | some m => rfl
  · show some (addAll R.rnd (new R.rnd) vs).min = (Stats.eval R.rnd (Stats.adds .new vs)).lo
    rw [e]
    cases hh : (Stats.eval R.rnd (Stats.adds .new vs)).lo with
    | none => rw [hh] at f2; exact absurd f2 hne
    | some m => rfl
  · unfold stddev Stats.variance
    rw [hm, if_neg hn]
    have e1 : s.sumsq = t.sumsq := c
    have e2 : s.count = t.number := a
    simp only [e1, e2]

/-- C211, false of the code: `stddev` dies for three times 0.1. -/
theorem stddev_dies_false : ∃ v, Flt.ieee.rnd v = v ∧ stddev Flt.ieee.rnd (addAll Flt.ieee.rnd (new Flt.ieee.rnd) [v, v, v]) = .died :=
  ⟨3602879701896397 / 36028797018963968, by decide +kernel, by decide +kernel⟩

/-- C211, false of the code: values above 1e100 are not seen by the minimum, and those below -1e100 not by the maximum; without values these are numbers that were never added. -/
theorem range_false : (addAll id (new id) [10 ^ 101]).min = 10 ^ 100 ∧ (addAll id (new id) [-10 ^ 101]).max = -10 ^ 100 ∧ (new id).max = -10 ^ 100 := by
  refine ⟨by decide +kernel, by decide +kernel, rfl⟩

end Verif.Stats.Perl
