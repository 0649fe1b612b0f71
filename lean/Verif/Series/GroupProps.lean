import Verif.Series.GroupLemmas

/-!
# Properties of groups of intervals

C38.
-/

namespace Verif.Series

open Verif

/-- C38. In exact arithmetic, with times that do not go back, each value is in the statistic of its interval, there are as many intervals as the time that went by takes,
and an interval without values (other than the first) has no statistic. Missing: `reset` leaves the statistic of all values as it was (`series_group_reset_false`), and
with doubles or an interval of 0 the series may not go on (`series_group_double_false`, `series_group_zero_false`). -/
theorem series_group_partial {d : Rat} (hd : 0 < d) (ops : List GOp) (hT : Timely ops) : ∃ N, ∀ fuel, N ≤ fuel → ∃ s, runSG id fuel (newSG d) ops = .ok s ∧
    (epoch ops = none → s.stats = [] ∧ s.cur = none ∧ s.last = none ∧ s.first = none) ∧
    (∀ t0 l, epoch ops = some (t0, l) → s.first = some t0 ∧ s.last = some (latest t0 l) ∧ (s.stats.length : Int) = slot t0 d (latest t0 l) + 1 ∧
      (∀ p ∈ l, 0 ≤ slot t0 d p.2 ∧ slot t0 d p.2 < s.stats.length) ∧
      ∀ i, i < s.stats.length → (inSlot t0 d l i ≠ [] → getStat s i = .ok (Stats.eval id (Stats.adds .new (inSlot t0 d l i)))) ∧ (0 < i → inSlot t0 d l i = [] → s.stats[i]? = some none)) ∧
    s.st = Stats.eval id (Stats.adds .new (everything ops)) := by
  obtain ⟨N, hN⟩ := runSG_ok hd ops hT
  refine ⟨N, fun fuel hf => ?_⟩
  obtain ⟨s, e, ⟨hS1, hS2⟩, hst⟩ := hN fuel hf
  refine ⟨s, e, fun h => ?_, fun t0 l h => ?_, hst⟩
  · rw [h] at hS2
    exact ⟨hS2.2.2.2, hS2.2.1, hS2.1, hS2.2.2.1⟩
  · rw [h] at hS2
    have hI : InvG s t0 l := hS2
    have hp := hI.len
    have hmono : ∀ {a b : Rat}, a ≤ b → slot t0 d a ≤ slot t0 d b := fun hab => Int.floor_le_floor (div_le_div_of_nonneg_right (by linarith) (le_of_lt hd))
    have hslot : slot t0 d (latest t0 l) = ((s.stats.length - 1 : Nat) : Int) := by
      rw [slot_eq hd, ← hS1]
      exact ⟨by exact_mod_cast hI.low, by exact_mod_cast hI.high⟩
    refine ⟨hI.first, hI.last, by rw [hslot]; omega, fun p hp' => ?_, fun i hi => ⟨fun hne => ?_, fun h0 hempty => ?_⟩⟩
    · obtain ⟨b1, b2⟩ := hI.before p hp'
      have h1 := hmono b2
      rw [hslot] at h1
      refine ⟨Int.floor_nonneg.2 (div_nonneg (by linarith) (le_of_lt hd)), by omega⟩
    · unfold getStat
      rw [show decide (i < s.stats.length) = true from decide_eq_true hi, Res.require_true, Res.bind_ok, hI.stats i hi, hS1]
      unfold want
      rw [if_pos (Or.inr hne)]
    · rw [hI.stats i hi, hS1]
      unfold want
      rw [if_neg]
      rintro (h' | h')
      · omega
      · exact h' hempty

/-- A case of the theorem. -/
example : (runSG id 10 (newSG 2) [.add 5 1, .add 6 (5 / 2), .add 7 8]).map (fun s => s.stats.map (·.map Stats.St.sum)) = .ok [some 11, none, none, some 7] ∧
    epoch [.add 5 1, .add 6 (5 / 2), .add 7 8] = some (1, [(5, 1), (6, 5 / 2), (7, 8)]) ∧ Timely [.add 5 1, .add 6 (5 / 2), .add 7 8] := by
  refine ⟨by decide +kernel, by decide +kernel, fun a o b e => ?_⟩
  match a, e with
  | [], e => injection e with e1 e2; subst e1; intro t0 l h; cases h
  | [x], e => injection e with e1 e2; injection e2 with e2 e3; subst e1 e2; intro t0 l h; injection h with h; injection h with h1 h2; subst h1 h2; decide +kernel
  | [x, y], e =>
    injection e with e1 e2; injection e2 with e2 e3; injection e3 with e3 e4; subst e1 e2 e3; intro t0 l h; injection h with h; injection h with h1 h2; subst h1 h2; decide +kernel
  | x :: y :: z :: a, e =>
    have := congrArg List.length e
    simp at this

/-- C38. `reset` is not a reset: the count, the mean and all else of the group's own statistic stay as they were. -/
theorem series_group_reset_false : (runSG id 10 (newSG 2) [.add 5 1, .reset]).map (fun s => s.st.number) = .ok 1 ∧ (newSG 2).st.number = 0 ∧ ∀ s, (resetSG s).st = s.st :=
  ⟨by decide +kernel, rfl, fun _ => rfl⟩

/-- C38. Asking for the statistic of an interval without values is undefined. -/
theorem series_group_empty_ub : (runSG id 10 (newSG 2) [.add 5 1, .add 7 8]).map (fun s => (s.stats.length, getStat s 1)) = .ok (4, .ub) := by decide +kernel

/-- C38. Values that come late abort, whatever the state. -/
theorem series_group_order (r : Rat → Rat) (fuel : Nat) (s : SG) (u v t : Rat) (hu : s.last = some u) (h : t < u) : addTime r fuel s v t = .abort := by
  unfold addTime
  rw [hu]
  show (Res.require (match s.last with | none => false | some u => decide (u ≤ t)) >>= fun _ => _) = _
  rw [hu]
  simp only []
  rw [show decide (u ≤ t) = false from decide_eq_false (not_le.2 h)]
  rfl

theorem skip_zero {d t : Rat} (hd : d ≤ 0) : ∀ (fuel : Nat) (c : Rat) (l : List (Option Stats.St)), c ≤ t → skip id d t fuel c l = .ub
  | 0, _, _, _ => rfl
  | fuel + 1, c, l, h => by
    rw [skip, if_pos (by show d ≤ t - c; linarith)]
    exact skip_zero hd fuel _ _ (by show c + d ≤ t; linarith)

/-- C38. With an interval that is not positive, which the constructor accepts, not even the first value is added: the loop has no end, however many rounds are allowed. -/
theorem series_group_zero_false {d : Rat} (hd : d ≤ 0) (fuel : Nat) (v t : Rat) : runSG id fuel (newSG d) [.add v t] = .ub := by
  show (addTime id fuel (newSG d) v t >>= _) = _
  have : addTime id fuel (newSG d) v t = (advance id fuel (addStat { (newSG d) with last := some t, cur := some t, first := some t }) t >>= fun s => record id s v) := by
    unfold addTime
    show (Res.require (decide (t ≤ t)) >>= fun _ => _) = _
    rw [show decide (t ≤ t) = true from decide_eq_true (le_refl t)]
    rfl
  rw [this]
  have : advance id fuel (addStat { (newSG d) with last := some t, cur := some t, first := some t }) t = .ub := by
    show (if d ≤ t - t then _ else _) = _
    rw [if_pos (by linarith)]
    show (skip id d t fuel (t + d) [some Stats.reset] >>= _) = _
    rw [skip_zero hd fuel _ _ (by linarith)]
    rfl
  rw [this]
  rfl

example : runSG id 1000 (newSG 0) [.add 5 1] = .ub := series_group_zero_false (le_refl 0) 1000 5 1

/-- C38. With doubles the same happens for positive intervals that are lost when they are added to the time: half a second, at time `2^53`. -/
theorem series_group_double_false (fuel : Nat) : runSG Flt.ieee.rnd fuel (newSG (1 / 2)) [.add 5 (2 ^ 53), .add 6 (2 ^ 53 + 2)] = .ub := by
  have hs : ∀ (fuel : Nat) (l : List (Option Stats.St)), skip Flt.ieee.rnd (1 / 2) (2 ^ 53 + 2) fuel (2 ^ 53) l = .ub := by
    intro fuel
    induction fuel with
    | zero => intro l; rfl
    | succ fuel ih =>
      intro l
      rw [skip, if_pos (by decide +kernel), show Flt.ieee.rnd (2 ^ 53 + 1 / 2) = 2 ^ 53 by decide +kernel]
      exact ih _
  have h1 : ∃ st st', addTime Flt.ieee.rnd fuel (newSG (1 / 2)) 5 (2 ^ 53) = .ok ⟨1 / 2, some (2 ^ 53), some (2 ^ 53), some (2 ^ 53), [some st], st'⟩ := by
    refine ⟨Stats.add Flt.ieee.rnd Stats.reset 5, Stats.add Flt.ieee.rnd Stats.reset 5, ?_⟩
    have : addTime Flt.ieee.rnd fuel (newSG (1 / 2)) 5 (2 ^ 53) = (advance Flt.ieee.rnd fuel (addStat { (newSG (1 / 2)) with last := some (2 ^ 53), cur := some (2 ^ 53), first := some (2 ^ 53) }) (2 ^ 53) >>= fun s => record Flt.ieee.rnd s 5) := by
      unfold addTime
      show (Res.require (decide ((2 : Rat) ^ 53 ≤ 2 ^ 53)) >>= fun _ => _) = _
      rw [show decide ((2 : Rat) ^ 53 ≤ 2 ^ 53) = true from decide_eq_true (le_refl _)]
      rfl
    rw [this]
    have : advance Flt.ieee.rnd fuel (addStat { (newSG (1 / 2)) with last := some (2 ^ 53), cur := some (2 ^ 53), first := some (2 ^ 53) }) (2 ^ 53) =
        .ok (addStat { (newSG (1 / 2)) with last := some (2 ^ 53), cur := some (2 ^ 53), first := some (2 ^ 53) }) := by
      show (if (1 / 2 : Rat) ≤ Flt.ieee.rnd (2 ^ 53 - 2 ^ 53) then _ else _) = _
      rw [if_neg (by decide +kernel)]
      rfl
    rw [this]
    rfl
  obtain ⟨st, st', h1⟩ := h1
  rw [runSG, stepSG, h1, Res.bind_ok, runSG, stepSG]
  have h2 : addTime Flt.ieee.rnd fuel ⟨1 / 2, some (2 ^ 53), some (2 ^ 53), some (2 ^ 53), [some st], st'⟩ 6 (2 ^ 53 + 2) = .ub := by
    unfold addTime
    show (Res.require (decide ((2 : Rat) ^ 53 ≤ 2 ^ 53 + 2)) >>= fun _ => _) = _
    rw [show decide ((2 : Rat) ^ 53 ≤ 2 ^ 53 + 2) = true by decide +kernel, Res.require_true, Res.bind_ok]
    show ((if (1 / 2 : Rat) ≤ Flt.ieee.rnd (2 ^ 53 + 2 - 2 ^ 53) then (skip Flt.ieee.rnd (1 / 2) (2 ^ 53 + 2) fuel (Flt.ieee.rnd (2 ^ 53 + 1 / 2)) [some st] >>= _) else _) >>= _) = _
    rw [if_pos (by decide +kernel), show Flt.ieee.rnd (2 ^ 53 + 1 / 2) = 2 ^ 53 by decide +kernel, hs]
    rfl
  rw [h2]
  rfl

end Verif.Series
