import Verif.Ema.Model
import Verif.Stats.Props
import Mathlib.Algebra.BigOperators.Intervals
import Mathlib.Algebra.BigOperators.Ring.Finset
import Mathlib.Algebra.Order.Floor.Ring
import Mathlib.Data.Rat.Floor

/-!
# Properties of exponential moving averages

C94.
-/

namespace Verif.Ema

open Verif

/-- The moving average of rate `d`: the mean of the first `⌊1/d⌋` values, and from then on every new value counts `d` and everything before it `1 - d`. -/
def average (d : Rat) (l : List Rat) : Rat :=
  let m := ⌊1 / d⌋₊
  if l.length ≤ m then Stats.avg l
  else (1 - d) ^ (l.length - m) * Stats.avg (l.take m) + ∑ j ∈ Finset.range (l.length - m), d * (1 - d) ^ (l.length - m - 1 - j) * l.getD (m + j) 0

theorem floor_pos {d : Rat} (h0 : 0 < d) (h1 : d < 1) : 1 ≤ ⌊1 / d⌋₊ := by
  apply Nat.le_floor
  rw [Nat.cast_one, le_div_iff₀ h0]
  linarith

theorem above {d : Rat} (h0 : 0 < d) (n : Nat) : 1 / d < n ↔ ⌊1 / d⌋₊ < n := by
  rw [Nat.floor_lt (by positivity)]

theorem average_snoc {d : Rat} (h0 : 0 < d) (h1 : d < 1) (l : List Rat) (v : Rat) :
    average d (l ++ [v]) = if 1 / d < ((l.length + 1 : Nat) : Rat) then (1 - d) * average d l + d * v else Stats.avg (l ++ [v]) := by
  have hm := floor_pos h0 h1
  have hc := above h0 (l.length + 1)
  unfold average
  generalize ⌊1 / d⌋₊ = m at *
  simp only [List.length_append, List.length_singleton]
  by_cases h : 1 / d < ((l.length + 1 : Nat) : Rat)
  · have hlt := hc.1 h
    rw [if_pos h, if_neg (by omega)]
    by_cases he : l.length = m
    · rw [if_pos (by omega), he]
      have : m + 1 - m = 1 := by omega
      rw [this, List.take_append_of_le_length (by omega), List.take_of_length_le (by omega)]
      rw [Finset.sum_range_one]
      have : (l ++ [v]).getD (m + 0) 0 = v := by
        rw [List.getD_eq_getElem?_getD, List.getElem?_append_right (by omega)]
        simp [he]
      rw [this]
      simp
    · rw [if_neg (by omega)]
      have hk : l.length + 1 - m = (l.length - m) + 1 := by omega
      rw [hk, Finset.sum_range_succ, List.take_append_of_le_length (by omega)]
      have e1 : ∀ j ∈ Finset.range (l.length - m), d * (1 - d) ^ (l.length - m + 1 - 1 - j) * (l ++ [v]).getD (m + j) 0 =
          (1 - d) * (d * (1 - d) ^ (l.length - m - 1 - j) * l.getD (m + j) 0) := by
        intro j hj
        rw [Finset.mem_range] at hj
        have : l.length - m + 1 - 1 - j = (l.length - m - 1 - j) + 1 := by omega
        rw [this, pow_succ, List.getD_eq_getElem?_getD, List.getElem?_append_left (by omega), ← List.getD_eq_getElem?_getD]
        ring
      rw [Finset.sum_congr rfl e1, ← Finset.mul_sum]
      have e2 : (l ++ [v]).getD (m + (l.length - m)) 0 = v := by
        have : m + (l.length - m) = l.length := by omega
        rw [this, List.getD_eq_getElem?_getD, List.getElem?_append_right (by omega)]
        simp
      rw [e2]
      have e3 : l.length - m + 1 - 1 - (l.length - m) = 0 := by omega
      rw [e3, pow_succ]
      ring
  · have hle : l.length + 1 ≤ m := by by_contra hx; exact h (hc.2 (by omega))
    rw [if_neg h, if_pos hle]

theorem adds_snoc (r : Rat → Rat) (e : E) (l : List Rat) (v : Rat) : adds r e (l ++ [v]) = add r (adds r e l) v := by
  unfold adds
  rw [List.foldl_append]
  rfl

theorem hist_snoc (r : Rat → Rat) (l : List Rat) (v : Rat) : Stats.eval r (Stats.adds .new (l ++ [v])) = Stats.add r (Stats.eval r (Stats.adds .new l)) v := by
  unfold Stats.adds
  rw [List.foldl_append]
  rfl

/-- All the fields. -/
theorem state {rates : List Rat} (hd : ∀ d ∈ rates, 0 < d ∧ d < 1) (l : List Rat) :
    adds id ⟨Stats.reset, rates.map fun d => ⟨d, 0, true⟩⟩ l = ⟨Stats.eval id (Stats.adds .new l), rates.map fun d => ⟨d, average d l, decide ((l.length : Rat) ≤ 1 / d)⟩⟩ := by
  induction l using List.reverseRecOn with
  | nil =>
    unfold adds
    show E.mk _ _ = _
    congr 1
    apply List.map_congr_left
    intro d hdm
    have h0 := (hd d hdm).1
    congr 1
    · unfold average
      simp [Stats.avg]
    · have : (0 : Rat) ≤ 1 / d := by positivity
      simp
      exact h0.le
  | append_singleton l v ih =>
    rw [adds_snoc, ih, hist_snoc]
    unfold add
    simp only [List.map_map]
    congr 1
    apply List.map_congr_left
    intro d hdm
    obtain ⟨h0, h1⟩ := hd d hdm
    have hav := average_snoc h0 h1 l v
    have hnum : (Stats.add id (Stats.eval id (Stats.adds .new l)) v).number = l.length + 1 := by
      rw [← hist_snoc, (Stats.eval_any id _).1, Stats.values_adds]
      simp [Stats.values]
    have hmean : Stats.mean id (Stats.add id (Stats.eval id (Stats.adds .new l)) v) = Stats.avg (l ++ [v]) := by
      rw [← hist_snoc]
      have := (Stats.stats_moments (Stats.adds .new (l ++ [v])) (by rw [Stats.values_adds]; simp)).1
      rw [this, Stats.values_adds]
      rfl
    have hlen : (((l ++ [v]).length : Nat) : Rat) = ((l.length + 1 : Nat) : Rat) := by simp
    show addSlot id _ v ⟨d, average d l, decide ((l.length : Rat) ≤ 1 / d)⟩ = _
    unfold addSlot
    simp only [id]
    rw [hnum, hmean, hav, hlen]
    by_cases hlow : (l.length : Rat) ≤ 1 / d
    · rw [decide_eq_true hlow, if_pos rfl]
      by_cases hc : 1 / d < ((l.length + 1 : Nat) : Rat)
      · rw [if_pos hc, if_pos hc, decide_eq_false (not_le.2 hc)]
        rfl
      · rw [if_neg hc, if_neg hc, decide_eq_true (not_lt.1 hc)]
    · have hc : 1 / d < ((l.length + 1 : Nat) : Rat) := by push_cast; push Not at hlow; linarith
      rw [decide_eq_false hlow, if_neg (by simp), if_pos hc, decide_eq_false (not_le.2 hc)]
      rfl

theorem new_ok {rates : List Rat} {e : E} (h : new rates = .ok e) : rates ≠ [] ∧ (∀ d ∈ rates, 0 < d ∧ d < 1) ∧ e = ⟨Stats.reset, rates.map fun d => ⟨d, 0, true⟩⟩ := by
  unfold new at h
  by_cases h0 : 0 < rates.length
  · rw [decide_eq_true h0, Res.require_true, Res.bind_ok] at h
    cases h1 : rates.all fun d => decide (0 < d ∧ d < 1) with
    | false => rw [h1] at h; cases h
    | true =>
      rw [h1] at h
      cases h
      rw [List.all_eq_true] at h1
      exact ⟨by intro hx; subst hx; simp at h0, fun d hd => of_decide_eq_true (h1 d hd), rfl⟩
  · rw [decide_eq_false h0] at h; cases h

/-- C94. Rates are accepted exactly if there are some and all are between 0 and 1. -/
theorem ema_rates (rates : List Rat) : (∃ e, new rates = .ok e) ↔ rates ≠ [] ∧ ∀ d ∈ rates, 0 < d ∧ d < 1 := by
  constructor
  · intro ⟨e, h⟩
    exact ⟨(new_ok h).1, (new_ok h).2.1⟩
  · intro ⟨h0, h1⟩
    refine ⟨⟨Stats.reset, rates.map fun d => ⟨d, 0, true⟩⟩, ?_⟩
    unfold new
    rw [decide_eq_true (List.length_pos_iff.2 h0), Res.require_true, Res.bind_ok, List.all_eq_true.2 (fun d hd => decide_eq_true (h1 d hd))]
    rfl

/-- C94. In exact arithmetic the `i`th average is the moving average of the `i`th rate, the statistics of the base class are those of the values, and there are no other averages. -/
theorem ema_average {rates : List Rat} {e : E} (h : new rates = .ok e) (l : List Rat) :
    (adds id e l).st = Stats.eval id (Stats.adds .new l) ∧ ∀ i, get (adds id e l) i = match rates[i]? with | none => .abort | some d => .ok (average d l) := by
  obtain ⟨-, hd, rfl⟩ := new_ok h
  rw [state hd]
  refine ⟨rfl, fun i => ?_⟩
  unfold get
  rw [List.getElem?_map]
  cases rates[i]? <;> rfl

/-- C94. A moving average is between the smallest and the largest value. -/
theorem ema_range {d : Rat} (h0 : 0 < d) (h1 : d < 1) {lo hi : Rat} (l : List Rat) (hne : l ≠ []) (hl : ∀ v ∈ l, lo ≤ v ∧ v ≤ hi) : lo ≤ average d l ∧ average d l ≤ hi := by
  have havg : ∀ l : List Rat, l ≠ [] → (∀ v ∈ l, lo ≤ v ∧ v ≤ hi) → lo ≤ Stats.avg l ∧ Stats.avg l ≤ hi := by
    intro l hne hl
    have hp : (0 : Rat) < l.length := by exact_mod_cast List.length_pos_iff.2 hne
    unfold Stats.avg
    constructor
    · rw [le_div_iff₀ hp, mul_comm]; exact Stats.sum_ge_of_le fun v hv => (hl v hv).1
    · rw [div_le_iff₀ hp, mul_comm]; exact Stats.sum_le_of_ge fun v hv => (hl v hv).2
  induction l using List.reverseRecOn with
  | nil => exact absurd rfl hne
  | append_singleton l v ih =>
    rw [average_snoc h0 h1]
    by_cases hc : 1 / d < ((l.length + 1 : Nat) : Rat)
    · rw [if_pos hc]
      have hln : l ≠ [] := by
        intro hx
        subst hx
        rw [div_lt_iff₀ h0] at hc
        simp at hc
        linarith
      obtain ⟨q1, q2⟩ := ih hln fun w hw => hl w (by simp [hw])
      obtain ⟨q3, q4⟩ := hl v (by simp)
      constructor <;> nlinarith
    · rw [if_neg hc]
      exact havg _ (by simp) hl

/-- C94. The average of values that are all the same is that value, and adding more of one value brings the average closer to it by the same factor each time. -/
theorem ema_step {d : Rat} (h0 : 0 < d) (h1 : d < 1) (l : List Rat) (v : Rat) (hn : 1 / d < ((l.length + 1 : Nat) : Rat)) :
    average d (l ++ [v]) - v = (1 - d) * (average d l - v) := by
  rw [average_snoc h0 h1, if_pos hn]
  ring

/-- C94. `minEMA` and `maxEMA` are the smallest and the largest of the averages. -/
theorem ema_extremes {rates : List Rat} {e : E} (h : new rates = .ok e) (r : Rat → Rat) (l : List Rat) :
    ∃ a b, least (adds r e l) = .ok a ∧ greatest (adds r e l) = .ok b ∧ (∃ i, get (adds r e l) i = .ok a) ∧ (∃ i, get (adds r e l) i = .ok b) ∧
      ∀ i x, get (adds r e l) i = .ok x → a ≤ x ∧ x ≤ b := by
  have hlen : ∀ l : List Rat, ((adds r e l).slots).length = rates.length := by
    intro l
    induction l using List.reverseRecOn with
    | nil => obtain ⟨-, -, rfl⟩ := new_ok h; exact List.length_map _
    | append_singleton l v ih => rw [adds_snoc, ← ih]; exact List.length_map _
  have hne : (adds r e l).slots ≠ [] := by
    intro hx
    have := hlen l
    rw [hx] at this
    exact (new_ok h).1 (List.length_eq_zero_iff.1 this.symm)
  generalize adds r e l = e' at hne
  obtain ⟨st, slots⟩ := e'
  cases slots with
  | nil => exact absurd rfl hne
  | cons s t =>
    have hmin : ∀ (t : List Slot) (x : Rat), ((t.foldl (fun ret s => if s.value < ret then s.value else ret) x) = x ∨ ∃ s ∈ t, s.value = t.foldl (fun ret s => if s.value < ret then s.value else ret) x) ∧
        t.foldl (fun ret s => if s.value < ret then s.value else ret) x ≤ x ∧ ∀ s ∈ t, t.foldl (fun ret s => if s.value < ret then s.value else ret) x ≤ s.value := by
      intro t
      induction t with
      | nil => intro x; exact ⟨.inl rfl, le_refl _, by simp⟩
      | cons s t ih =>
        intro x
        rw [List.foldl_cons]
        obtain ⟨i1, i2, i3⟩ := ih (if s.value < x then s.value else x)
        have hx : (if s.value < x then s.value else x) ≤ x ∧ (if s.value < x then s.value else x) ≤ s.value := by
          by_cases hc : s.value < x
          · rw [if_pos hc]; exact ⟨hc.le, le_refl _⟩
          · rw [if_neg hc]; exact ⟨le_refl _, not_lt.1 hc⟩
        refine ⟨?_, le_trans i2 hx.1, fun u hu => ?_⟩
        · rcases i1 with i1 | ⟨u, hu, e⟩
          · by_cases hc : s.value < x
            · rw [if_pos hc] at i1 ⊢; exact .inr ⟨s, by simp, i1.symm⟩
            · rw [if_neg hc] at i1 ⊢; exact .inl i1
          · exact .inr ⟨u, by simp [hu], e⟩
        · rcases List.mem_cons.1 hu with rfl | hu
          · exact le_trans i2 hx.2
          · exact i3 u hu
    have hmax : ∀ (t : List Slot) (x : Rat), ((t.foldl (fun ret s => if ret < s.value then s.value else ret) x) = x ∨ ∃ s ∈ t, s.value = t.foldl (fun ret s => if ret < s.value then s.value else ret) x) ∧
        x ≤ t.foldl (fun ret s => if ret < s.value then s.value else ret) x ∧ ∀ s ∈ t, s.value ≤ t.foldl (fun ret s => if ret < s.value then s.value else ret) x := by
      intro t
      induction t with
      | nil => intro x; exact ⟨.inl rfl, le_refl _, by simp⟩
      | cons s t ih =>
        intro x
        rw [List.foldl_cons]
        obtain ⟨i1, i2, i3⟩ := ih (if x < s.value then s.value else x)
        have hx : x ≤ (if x < s.value then s.value else x) ∧ s.value ≤ (if x < s.value then s.value else x) := by
          by_cases hc : x < s.value
          · rw [if_pos hc]; exact ⟨hc.le, le_refl _⟩
          · rw [if_neg hc]; exact ⟨le_refl _, not_lt.1 hc⟩
        refine ⟨?_, le_trans hx.1 i2, fun u hu => ?_⟩
        · rcases i1 with i1 | ⟨u, hu, e⟩
          · by_cases hc : x < s.value
            · rw [if_pos hc] at i1 ⊢; exact .inr ⟨s, by simp, i1.symm⟩
            · rw [if_neg hc] at i1 ⊢; exact .inl i1
          · exact .inr ⟨u, by simp [hu], e⟩
        · rcases List.mem_cons.1 hu with rfl | hu
          · exact le_trans hx.2 i2
          · exact i3 u hu
    have hget : ∀ i x, get ⟨st, s :: t⟩ i = .ok x ↔ ∃ u, (s :: t)[i]? = some u ∧ u.value = x := by
      intro i x
      unfold get
      simp only []
      cases (s :: t)[i]? with
      | none => simp
      | some u => simp
    have hin : ∀ u ∈ s :: t, ∃ i, get ⟨st, s :: t⟩ i = .ok u.value := by
      intro u hu
      obtain ⟨i, hi⟩ := List.getElem?_of_mem hu
      exact ⟨i, (hget i _).2 ⟨u, hi, rfl⟩⟩
    obtain ⟨a1, a2, a3⟩ := hmin t s.value
    obtain ⟨b1, b2, b3⟩ := hmax t s.value
    refine ⟨_, _, rfl, rfl, ?_, ?_, fun i x hx => ?_⟩
    · rcases a1 with a1 | ⟨u, hu, e⟩
      · rw [a1]; exact hin s (by simp)
      · rw [← e]; exact hin u (by simp [hu])
    · rcases b1 with b1 | ⟨u, hu, e⟩
      · rw [b1]; exact hin s (by simp)
      · rw [← e]; exact hin u (by simp [hu])
    · obtain ⟨u, hu, rfl⟩ := (hget i x).1 hx
      rcases List.mem_cons.1 (List.mem_of_getElem? hu) with rfl | hm
      · exact ⟨a2, b2⟩
      · exact ⟨a3 u hm, b3 u hm⟩

/-- A case of the theorems. -/
example : ((new [1 / 2, 1 / 10]).map fun e => (get (adds id e [2, 4, 9, 1]) 0, get (adds id e [2, 4, 9, 1]) 1)) = .ok (.ok (7 / 2), .ok 4) := by decide +kernel

/-- C94. In doubles an average can be above all the values: of three equal values the mean is already. -/
theorem ema_double_false : ∃ v, Flt.ieee.rnd v = v ∧ ∃ e, new [1 / 4] = .ok e ∧ ∃ x, get (adds Flt.ieee.rnd e [v, v, v]) 0 = .ok x ∧ v < x := by
  refine ⟨3602879701896397 / 2 ^ 55, by decide +kernel, ⟨Stats.reset, [⟨1 / 4, 0, true⟩]⟩, by decide +kernel,
    Stats.mean Flt.ieee.rnd (Stats.eval Flt.ieee.rnd (Stats.adds .new [3602879701896397 / 2 ^ 55, 3602879701896397 / 2 ^ 55, 3602879701896397 / 2 ^ 55])), by decide +kernel, by decide +kernel⟩

/-- C94. A moving average cannot be reset, although every other statistic can. -/
theorem ema_reset_false (e : E) : reset e = .abort := rfl

end Verif.Ema
