import Verif.Lsq.Model
import Mathlib.Tactic.Linarith
import Mathlib.Tactic.Ring
import Mathlib.Tactic.FieldSimp
import Mathlib.Tactic.Positivity
import Mathlib.Algebra.BigOperators.Group.List.Basic

/-!
# Properties of least squares

C39.
-/

namespace Verif.Lsq

open Verif

/-- The weighted sum of the squares of the residuals of a line. -/
def cost (data : List Point) (a b : Rat) : Rat := (data.map fun p => p.w * (p.y - (b * p.x + a)) ^ 2).sum

/-- What is there after some calls. -/
def points : List Op → List Point
  | ops => ops.foldl (fun l o => match o with | .add x y w => l ++ [⟨x, y, w⟩] | .clear => []) []

def sums (data : List Point) : Sums :=
  ⟨(data.map fun p => p.w).sum, (data.map fun p => p.w * p.x).sum, (data.map fun p => p.w * p.y).sum, (data.map fun p => p.w * p.x * p.x).sum, (data.map fun p => p.w * p.x * p.y).sum⟩

theorem fold_sums : ∀ (data : List Point) (s : Sums), data.foldl (accumulate id) s =
    ⟨s.w + (sums data).w, s.wx + (sums data).wx, s.wy + (sums data).wy, s.wxx + (sums data).wxx, s.wxy + (sums data).wxy⟩
  | [], s => by simp [sums]
  | p :: data, s => by
    rw [List.foldl_cons, fold_sums data]
    simp only [accumulate, sums, id, List.map_cons, List.sum_cons, Sums.mk.injEq]
    refine ⟨?_, ?_, ?_, ?_, ?_⟩ <;> ring

def syy (data : List Point) : Rat := (data.map fun p => p.w * p.y * p.y).sum

theorem cost_eq : ∀ (data : List Point) (a b : Rat), cost data a b =
    syy data - 2 * b * (sums data).wxy - 2 * a * (sums data).wy + b * b * (sums data).wxx + 2 * a * b * (sums data).wx + a * a * (sums data).w
  | [], a, b => by simp [cost, syy, sums]
  | p :: data, a, b => by
    have ih := cost_eq data a b
    simp only [cost, syy, sums, List.map_cons, List.sum_cons] at ih ⊢
    rw [ih]
    ring

theorem w_pos {data : List Point} (hw : ∀ p ∈ data, 0 < p.w) (hne : data ≠ []) : 0 < (sums data).w := by
  have h0 : ∀ l : List Point, (∀ p ∈ l, 0 < p.w) → 0 ≤ (sums l).w := by
    intro l
    induction l with
    | nil => intro _; simp [sums]
    | cons p l ih =>
      intro h
      have := ih fun q hq => h q (by simp [hq])
      have := h p (by simp)
      simp only [sums, List.map_cons, List.sum_cons] at *
      linarith
  cases data with
  | nil => exact absurd rfl hne
  | cons p l =>
    have := h0 l fun q hq => hw q (by simp [hq])
    have := hw p (by simp)
    simp only [sums, List.map_cons, List.sum_cons] at *
    linarith

/-- The weighted spread of the x about `t`. -/
def spread (data : List Point) (t : Rat) : Rat := (data.map fun p => p.w * (p.x - t) ^ 2).sum

theorem spread_eq : ∀ (data : List Point) (t : Rat), spread data t = (sums data).wxx - 2 * t * (sums data).wx + t * t * (sums data).w
  | [], t => by simp [spread, sums]
  | p :: data, t => by
    have ih := spread_eq data t
    simp only [spread, sums, List.map_cons, List.sum_cons] at ih ⊢
    rw [ih]
    ring

theorem spread_nonneg : ∀ {data : List Point}, (∀ p ∈ data, 0 < p.w) → ∀ t, 0 ≤ spread data t ∧ (spread data t = 0 ↔ ∀ p ∈ data, p.x = t)
  | [], _, t => by simp [spread]
  | p :: data, h, t => by
    obtain ⟨i1, i2⟩ := spread_nonneg (data := data) (fun q hq => h q (by simp [hq])) t
    have hp := h p (by simp)
    have e : spread (p :: data) t = p.w * (p.x - t) ^ 2 + spread data t := rfl
    have h0 : 0 ≤ p.w * (p.x - t) ^ 2 := by positivity
    refine ⟨by rw [e]; linarith, ?_⟩
    rw [e]
    constructor
    · intro hs q hq
      have h1 : p.w * (p.x - t) ^ 2 = 0 := by linarith
      have h2 : spread data t = 0 := by linarith
      rcases List.mem_cons.1 hq with rfl | hq
      · rcases mul_eq_zero.1 h1 with h1 | h1
        · linarith
        · have := pow_eq_zero_iff (two_ne_zero) |>.1 h1
          linarith
      · exact i2.1 h2 q hq
    · intro hs
      rw [hs p (by simp), i2.2 fun q hq => hs q (by simp [hq])]
      ring

theorem denom_eq {data : List Point} (hw : ∀ p ∈ data, 0 < p.w) (hne : data ≠ []) : denom id (sums data) = (sums data).w * spread data ((sums data).wx / (sums data).w) := by
  have := w_pos hw hne
  rw [spread_eq]
  unfold denom
  simp only [id]
  field_simp
  ring

/-- C39. In exact arithmetic the fit needs two different x and nothing else. -/
theorem lsq_defined {data : List Point} (hw : ∀ p ∈ data, 0 < p.w) : (∃ l, fit id data = .ok l) ↔ ∃ p ∈ data, ∃ q ∈ data, p.x ≠ q.x := by
  unfold fit
  rw [fold_sums]
  simp only [zero_add]
  show (∃ l, (Res.require _ >>= fun _ => solve id (sums data)) = .ok l) ↔ _
  by_cases hl : 1 < data.length
  · have hne : data ≠ [] := by intro hx; subst hx; simp at hl
    rw [decide_eq_true hl, Res.require_true, Res.bind_ok]
    unfold solve
    by_cases hd : denom id (sums data) = 0
    · rw [decide_eq_false (by simpa using hd)]
      constructor
      · rintro ⟨l, h⟩; cases h
      · rintro ⟨p, hp, q, hq, hpq⟩
        rw [denom_eq hw hne] at hd
        have := w_pos hw hne
        rcases mul_eq_zero.1 hd with hd | hd
        · linarith
        · have := (spread_nonneg hw _).2.1 hd
          exact absurd ((this p hp).trans (this q hq).symm) hpq
    · rw [decide_eq_true hd]
      refine ⟨fun _ => ?_, fun _ => ⟨_, rfl⟩⟩
      by_contra hx
      push Not at hx
      apply hd
      rw [denom_eq hw hne]
      cases data with
      | nil => exact absurd rfl hne
      | cons p data =>
        have hs : spread (p :: data) p.x = 0 := (spread_nonneg hw _).2.2 fun q hq => hx q hq p (by simp)
        have hm : (sums (p :: data)).wx = p.x * (sums (p :: data)).w := by
          have : ∀ l : List Point, (∀ q ∈ l, q.x = p.x) → (sums l).wx = p.x * (sums l).w := by
            intro l
            induction l with
            | nil => intro _; simp [sums]
            | cons q l ih =>
              intro h
              have i := ih fun u hu => h u (by simp [hu])
              have := h q (by simp)
              simp only [sums, List.map_cons, List.sum_cons] at *
              rw [i, this]
              ring
          exact this _ fun q hq => hx q hq p (by simp)
        have hp := w_pos hw hne
        rw [hm, mul_div_assoc, div_self hp.ne', mul_one, hs, mul_zero]
  · rw [decide_eq_false hl]
    constructor
    · rintro ⟨l, h⟩; cases h
    · rintro ⟨p, hp, q, hq, hpq⟩
      cases data with
      | nil => cases hp
      | cons a data =>
        cases data with
        | nil =>
          rw [List.mem_singleton.1 hp, List.mem_singleton.1 hq] at hpq
          exact absurd rfl hpq
        | cons b data => simp at hl

/-- C39. In exact arithmetic the fitted line has the smallest weighted sum of squares, and no other line has it. -/
theorem lsq_minimal {data : List Point} (hw : ∀ p ∈ data, 0 < p.w) {l : Line} (h : fit id data = .ok l) (a b : Rat) :
    cost data l.intercept l.slope ≤ cost data a b ∧ (cost data a b = cost data l.intercept l.slope → a = l.intercept ∧ b = l.slope) := by
  unfold fit at h
  rw [fold_sums] at h
  simp only [zero_add] at h
  by_cases hl : 1 < data.length
  · have hne : data ≠ [] := by intro hx; subst hx; simp at hl
    rw [decide_eq_true hl, Res.require_true, Res.bind_ok] at h
    change solve id (sums data) = .ok l at h
    unfold solve at h
    by_cases hd : denom id (sums data) = 0
    · rw [decide_eq_false (by simpa using hd)] at h; cases h
    · rw [decide_eq_true hd] at h
      have hW := w_pos hw hne
      have hD : 0 < denom id (sums data) := by
        have : 0 ≤ denom id (sums data) := by rw [denom_eq hw hne]; exact mul_nonneg hW.le (spread_nonneg hw _).1
        exact lt_of_le_of_ne this (Ne.symm hd)
      injection h with h
      subst h
      simp only [id]
      have key : ∀ a b : Rat, cost data a b = cost data ((((sums data).wy - ((sums data).w * (sums data).wxy - (sums data).wx * (sums data).wy) / denom id (sums data) * (sums data).wx)) / (sums data).w)
            (((sums data).w * (sums data).wxy - (sums data).wx * (sums data).wy) / denom id (sums data)) +
          ((sums data).w * (a - (((sums data).wy - ((sums data).w * (sums data).wxy - (sums data).wx * (sums data).wy) / denom id (sums data) * (sums data).wx)) / (sums data).w +
              (b - ((sums data).w * (sums data).wxy - (sums data).wx * (sums data).wy) / denom id (sums data)) * (sums data).wx / (sums data).w) ^ 2 +
            denom id (sums data) / (sums data).w * (b - ((sums data).w * (sums data).wxy - (sums data).wx * (sums data).wy) / denom id (sums data)) ^ 2) := by
        intro a b
        rw [cost_eq, cost_eq]
        have hDe : denom id (sums data) = (sums data).w * (sums data).wxx - (sums data).wx * (sums data).wx := rfl
        generalize hβ : ((sums data).w * (sums data).wxy - (sums data).wx * (sums data).wy) / denom id (sums data) = β
        have h1 : β * ((sums data).w * (sums data).wxx - (sums data).wx * (sums data).wx) = (sums data).w * (sums data).wxy - (sums data).wx * (sums data).wy := by
          rw [← hβ, ← hDe, div_mul_cancel₀ _ hd]
        generalize hα : ((sums data).wy - β * (sums data).wx) / (sums data).w = α
        have h2 : α * (sums data).w = (sums data).wy - β * (sums data).wx := by rw [← hα, div_mul_cancel₀ _ hW.ne']
        rw [hDe]
        have hWn := hW.ne'
        have hxy : (sums data).wxy = (β * ((sums data).w * (sums data).wxx - (sums data).wx * (sums data).wx) + (sums data).wx * (sums data).wy) / (sums data).w := by
          rw [h1]; field_simp; ring
        have hy : (sums data).wy = α * (sums data).w + β * (sums data).wx := by linarith
        rw [hxy, hy]
        field_simp
        ring
      have k := key a b
      generalize (((sums data).wy - ((sums data).w * (sums data).wxy - (sums data).wx * (sums data).wy) / denom id (sums data) * (sums data).wx)) / (sums data).w = α at *
      generalize ((sums data).w * (sums data).wxy - (sums data).wx * (sums data).wy) / denom id (sums data) = β at *
      have p1 : 0 ≤ (sums data).w * (a - α + (b - β) * (sums data).wx / (sums data).w) ^ 2 := by positivity
      have hq : 0 < denom id (sums data) / (sums data).w := div_pos hD hW
      have p2 : 0 ≤ denom id (sums data) / (sums data).w * (b - β) ^ 2 := mul_nonneg hq.le (sq_nonneg _)
      refine ⟨by rw [k]; linarith, fun hc => ?_⟩
      rw [k] at hc
      have z2 : denom id (sums data) / (sums data).w * (b - β) ^ 2 = 0 := by linarith
      have z1 : (sums data).w * (a - α + (b - β) * (sums data).wx / (sums data).w) ^ 2 = 0 := by linarith
      have hb : b - β = 0 := by
        rcases mul_eq_zero.1 z2 with z | z
        · linarith
        · exact (pow_eq_zero_iff two_ne_zero).1 z
      have ha : a - α + (b - β) * (sums data).wx / (sums data).w = 0 := by
        rcases mul_eq_zero.1 z1 with z | z
        · linarith
        · exact (pow_eq_zero_iff two_ne_zero).1 z
      rw [hb, zero_mul, zero_div, add_zero] at ha
      exact ⟨by linarith, by linarith⟩
  · rw [decide_eq_false hl] at h; cases h

/-- C39. `add` accepts exactly positive weights, so the fit after any calls is about the points added since the last `clear`, which all have positive weights. -/
theorem lsq_points (ops : List Op) : (run [] ops = .abort ∨ run [] ops = .ok (points ops) ∧ ∀ p ∈ points ops, 0 < p.w) ∧
    (run [] ops = .abort ↔ ∃ x y w, Op.add x y w ∈ ops ∧ w ≤ 0) := by
  have happ : ∀ (a b : List Op) (d : List Point), run d (a ++ b) = run d a >>= fun d => run d b := by
    intro a b
    induction a with
    | nil => intro d; rfl
    | cons o a ih =>
      intro d
      rw [List.cons_append, run, run, Res.bind_assoc']
      congr 1; funext s'; exact ih s'
  have hsn : ∀ (ops : List Op) (o : Op), points (ops ++ [o]) = match o with | .add x y w => points ops ++ [⟨x, y, w⟩] | .clear => [] := by
    intro ops o
    unfold points
    rw [List.foldl_append]
    rfl
  induction ops using List.reverseRecOn with
  | nil => exact ⟨.inr ⟨rfl, by simp [points]⟩, by simp [run]⟩
  | append_singleton ops o ih =>
    obtain ⟨i1, i2⟩ := ih
    rw [happ]
    rcases i1 with i1 | ⟨i1, i3⟩
    · rw [i1]
      refine ⟨.inl rfl, ⟨fun _ => ?_, fun _ => rfl⟩⟩
      obtain ⟨x, y, w, hm, hw⟩ := i2.1 i1
      exact ⟨x, y, w, by simp [hm], hw⟩
    · have hno : ¬ ∃ x y w, Op.add x y w ∈ ops ∧ w ≤ 0 := fun hx => by rw [i2.2 hx] at i1; cases i1
      rw [i1, Res.bind_ok, run]
      cases o with
      | clear =>
        refine ⟨.inr ⟨by rw [hsn]; rfl, by rw [hsn]; simp⟩, ⟨fun h => (by cases h), ?_⟩⟩
        rintro ⟨x, y, w, hm, hw⟩
        exact absurd ⟨x, y, w, by simpa using hm, hw⟩ hno
      | add x y w =>
        unfold step
        by_cases hw : 0 < w
        · simp only []
          rw [decide_eq_true hw]
          refine ⟨.inr ⟨by rw [hsn]; rfl, ?_⟩, ⟨fun h => (by cases h), ?_⟩⟩
          · rw [hsn]
            intro p hp
            rcases List.mem_append.1 hp with hp | hp
            · exact i3 p hp
            · rw [List.mem_singleton.1 hp]; exact hw
          · rintro ⟨x', y', w', hm, hw'⟩
            rcases List.mem_append.1 hm with hm | hm
            · exact absurd ⟨x', y', w', hm, hw'⟩ hno
            · have := List.mem_singleton.1 hm
              injection this with e1 e2 e3
              subst e3
              linarith
        · simp only []
          rw [decide_eq_false hw]
          exact ⟨.inl rfl, ⟨fun _ => ⟨x, y, w, by simp, not_lt.1 hw⟩, fun _ => rfl⟩⟩

/-- A case of the theorems. -/
example : (run [] [.add 5 5 1, .clear, .add 0 1 1, .add 1 2 2, .add 3 1 1] >>= fun d => fit id d) = .ok ⟨31 / 19, -(2 / 19)⟩ := by decide +kernel

/-- C39. In doubles it is false: seven points above each other at 0.1 (rounded), on which every slope is as good, get a line of slope 16 rather than the documented abort. -/
theorem lsq_vertical_false : ∃ data : List Point, (∀ p ∈ data, p.x = 3602879701896397 / 2 ^ 55 ∧ p.w = 1 ∧ Flt.IsDouble p.x ∧ Flt.IsDouble p.y) ∧
    (fit Flt.ieee.rnd data).map (fun l => l.slope) = .ok 16 ∧ fit id data = .abort := by
  refine ⟨[⟨3602879701896397 / 2 ^ 55, 0, 1⟩, ⟨3602879701896397 / 2 ^ 55, 1, 1⟩, ⟨3602879701896397 / 2 ^ 55, 2, 1⟩, ⟨3602879701896397 / 2 ^ 55, 3, 1⟩,
    ⟨3602879701896397 / 2 ^ 55, 4, 1⟩, ⟨3602879701896397 / 2 ^ 55, 5, 1⟩, ⟨3602879701896397 / 2 ^ 55, 6, 1⟩], ?_, by decide +kernel, by decide +kernel⟩
  have hx : Flt.IsDouble (3602879701896397 / 2 ^ 55) := ⟨3602879701896397, -55, by norm_num, by norm_num⟩
  have hi : ∀ n : Int, |n| ≤ 2 ^ 53 → Flt.IsDouble n := Flt.isDouble_int
  intro p hp
  simp only [List.mem_cons, List.not_mem_nil, or_false] at hp
  rcases hp with rfl | rfl | rfl | rfl | rfl | rfl | rfl
  · exact ⟨rfl, rfl, hx, by simpa using hi 0 (by norm_num)⟩
  · exact ⟨rfl, rfl, hx, by simpa using hi 1 (by norm_num)⟩
  · exact ⟨rfl, rfl, hx, by simpa using hi 2 (by norm_num)⟩
  · exact ⟨rfl, rfl, hx, by simpa using hi 3 (by norm_num)⟩
  · exact ⟨rfl, rfl, hx, by simpa using hi 4 (by norm_num)⟩
  · exact ⟨rfl, rfl, hx, by simpa using hi 5 (by norm_num)⟩
  · exact ⟨rfl, rfl, hx, by simpa using hi 6 (by norm_num)⟩

/-- C39. And two points whose x are `2^27` and `2^27 + 1` abort, although there is a line through them. -/
theorem lsq_abort_false : fit Flt.ieee.rnd [⟨2 ^ 27, 0, 1⟩, ⟨2 ^ 27 + 1, 1, 1⟩] = .abort ∧ fit id [⟨2 ^ 27, 0, 1⟩, ⟨2 ^ 27 + 1, 1, 1⟩] = .ok ⟨-(2 ^ 27), 1⟩ := by decide +kernel

end Verif.Lsq
