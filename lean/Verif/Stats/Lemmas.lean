import Verif.Stats.Spec
import Mathlib.Algebra.BigOperators.Group.List.Basic
import Mathlib.Algebra.Order.BigOperators.Group.List

/-! # Lemmas about statistics -/

namespace Verif.Stats

open Verif

theorem isMin_add {vs : List Rat} {o : Option Rat} (h : IsMin vs o) (v : Rat) : IsMin (vs ++ [v]) (if ltLo (some v) o then some v else o) := by
  cases o with
  | none =>
    have : vs = [] := h
    subst this
    simp [ltLo, IsMin]
  | some m =>
    obtain ⟨h1, h2⟩ := h
    simp only [ltLo, decide_eq_true_eq]
    split
    · rename_i hlt
      refine ⟨by simp, fun x hx => ?_⟩
      rcases List.mem_append.1 hx with hx | hx
      · exact le_trans (le_of_lt hlt) (h2 x hx)
      · rw [List.mem_singleton.1 hx]
    · rename_i hlt
      refine ⟨by simp [h1], fun x hx => ?_⟩
      rcases List.mem_append.1 hx with hx | hx
      · exact h2 x hx
      · rw [List.mem_singleton.1 hx]; exact not_lt.1 hlt

theorem isMax_add {vs : List Rat} {o : Option Rat} (h : IsMax vs o) (v : Rat) : IsMax (vs ++ [v]) (if gtHi (some v) o then some v else o) := by
  cases o with
  | none =>
    have : vs = [] := h
    subst this
    simp [gtHi, IsMax]
  | some m =>
    obtain ⟨h1, h2⟩ := h
    simp only [gtHi, decide_eq_true_eq]
    split
    · rename_i hlt
      refine ⟨by simp, fun x hx => ?_⟩
      rcases List.mem_append.1 hx with hx | hx
      · exact le_trans (h2 x hx) (le_of_lt hlt)
      · rw [List.mem_singleton.1 hx]
    · rename_i hlt
      refine ⟨by simp [h1], fun x hx => ?_⟩
      rcases List.mem_append.1 hx with hx | hx
      · exact h2 x hx
      · rw [List.mem_singleton.1 hx]; exact not_lt.1 hlt

theorem isMin_merge {vs ws : List Rat} {o p : Option Rat} (h : IsMin vs o) (h' : IsMin ws p) : IsMin (vs ++ ws) (if ltLo p o then p else o) := by
  cases p with
  | none =>
    have : ws = [] := h'
    subst this
    simpa [ltLo] using h
  | some m =>
    cases o with
    | none =>
      have : vs = [] := h
      subst this
      simpa [ltLo] using h'
    | some n =>
      obtain ⟨h1, h2⟩ := h
      obtain ⟨h3, h4⟩ := h'
      simp only [ltLo, decide_eq_true_eq]
      split
      · rename_i hlt
        refine ⟨by simp [h3], fun x hx => ?_⟩
        rcases List.mem_append.1 hx with hx | hx
        · exact le_trans (le_of_lt hlt) (h2 x hx)
        · exact h4 x hx
      · rename_i hlt
        refine ⟨by simp [h1], fun x hx => ?_⟩
        rcases List.mem_append.1 hx with hx | hx
        · exact h2 x hx
        · exact le_trans (not_lt.1 hlt) (h4 x hx)

theorem isMax_merge {vs ws : List Rat} {o p : Option Rat} (h : IsMax vs o) (h' : IsMax ws p) : IsMax (vs ++ ws) (if gtHi p o then p else o) := by
  cases p with
  | none =>
    have : ws = [] := h'
    subst this
    simpa [gtHi] using h
  | some m =>
    cases o with
    | none =>
      have : vs = [] := h
      subst this
      simpa [gtHi] using h'
    | some n =>
      obtain ⟨h1, h2⟩ := h
      obtain ⟨h3, h4⟩ := h'
      simp only [gtHi, decide_eq_true_eq]
      split
      · rename_i hlt
        refine ⟨by simp [h3], fun x hx => ?_⟩
        rcases List.mem_append.1 hx with hx | hx
        · exact le_trans (h2 x hx) (le_of_lt hlt)
        · exact h4 x hx
      · rename_i hlt
        refine ⟨by simp [h1], fun x hx => ?_⟩
        rcases List.mem_append.1 hx with hx | hx
        · exact h2 x hx
        · exact le_trans (h4 x hx) (not_lt.1 hlt)

theorem IsMin.unique {vs : List Rat} {o p : Option Rat} (h : IsMin vs o) (h' : IsMin vs p) : o = p := by
  cases o <;> cases p
  · rfl
  · have : vs = [] := h
    subst this; cases h'.1
  · have : vs = [] := h'
    subst this; cases h.1
  · exact congrArg some (le_antisymm (h.2 _ h'.1) (h'.2 _ h.1))

theorem IsMax.unique {vs : List Rat} {o p : Option Rat} (h : IsMax vs o) (h' : IsMax vs p) : o = p := by
  cases o <;> cases p
  · rfl
  · have : vs = [] := h
    subst this; cases h'.1
  · have : vs = [] := h'
    subst this; cases h.1
  · exact congrArg some (le_antisymm (h'.2 _ h.1) (h.2 _ h'.1))

/-- Count, smallest and largest value, whatever the rounding. -/
theorem eval_any (r : Rat → Rat) : ∀ h : Hist, (eval r h).number = (values h).length ∧ IsMin (values h) (eval r h).lo ∧ IsMax (values h) (eval r h).hi
  | .new => ⟨rfl, rfl, rfl⟩
  | .reset _ => ⟨rfl, rfl, rfl⟩
  | .add h v => by
    obtain ⟨h1, h2, h3⟩ := eval_any r h
    exact ⟨by simp [eval, add, values, h1], isMin_add h2 v, isMax_add h3 v⟩
  | .merge h h' => by
    obtain ⟨h1, h2, h3⟩ := eval_any r h
    obtain ⟨g1, g2, g3⟩ := eval_any r h'
    exact ⟨by simp [eval, merge, values, h1, g1], isMin_merge h2 g2, isMax_merge h3 g3⟩

theorem eval_sums : ∀ h : Hist, (eval id h).sum = (values h).sum ∧ (eval id h).sumsq = ((values h).map (· ^ 2)).sum
  | .new => ⟨rfl, rfl⟩
  | .reset _ => ⟨rfl, rfl⟩
  | .add h v => by
    obtain ⟨h1, h2⟩ := eval_sums h
    constructor
    · simp only [eval, add, values, id, h1]; simp
    · simp only [eval, add, values, id, h2]; simp [sq]
  | .merge h h' => by
    obtain ⟨h1, h2⟩ := eval_sums h
    obtain ⟨g1, g2⟩ := eval_sums h'
    constructor
    · simp [eval, merge, values, h1, g1]
    · simp [eval, merge, values, h2, g2]

theorem values_adds : ∀ (vs : List Rat) (h : Hist), values (adds h vs) = values h ++ vs
  | [], h => by simp [adds]
  | v :: vs, h => by
    have := values_adds vs (.add h v)
    simp only [adds, List.foldl_cons] at this ⊢
    rw [this]; simp [values]

/-- `n` times the sum of the squared differences from `a`, plus what `a` is off. -/
theorem sum_sq_diff (a : Rat) : ∀ vs : List Rat, (vs.map fun v => (v - a) ^ 2).sum = (vs.map (· ^ 2)).sum - 2 * a * vs.sum + vs.length * a ^ 2
  | [] => by simp
  | v :: vs => by
    simp only [List.map_cons, List.sum_cons, List.length_cons, sum_sq_diff a vs]
    push_cast
    ring

theorem sum_ge_of_le {m : Rat} : ∀ {vs : List Rat}, (∀ v ∈ vs, m ≤ v) → vs.length * m ≤ vs.sum
  | [], _ => by simp
  | v :: vs, h => by
    have := sum_ge_of_le (vs := vs) fun x hx => h x (List.mem_cons_of_mem _ hx)
    have := h v List.mem_cons_self
    simp only [List.length_cons, List.sum_cons]
    push_cast
    linarith

theorem sum_le_of_ge {m : Rat} : ∀ {vs : List Rat}, (∀ v ∈ vs, v ≤ m) → vs.sum ≤ vs.length * m
  | [], _ => by simp
  | v :: vs, h => by
    have := sum_le_of_ge (vs := vs) fun x hx => h x (List.mem_cons_of_mem _ hx)
    have := h v List.mem_cons_self
    simp only [List.length_cons, List.sum_cons]
    push_cast
    linarith

/-! ## Doubles -/

def absSum (vs : List Rat) : Rat := (vs.map abs).sum

theorem absSum_append (a b : List Rat) : absSum (a ++ b) = absSum a + absSum b := by simp [absSum]
theorem absSum_nonneg (a : List Rat) : 0 ≤ absSum a := List.sum_nonneg fun x hx => by
  obtain ⟨v, _, rfl⟩ := List.mem_map.1 hx
  exact abs_nonneg v

theorem abs_sum_le : ∀ vs : List Rat, |vs.sum| ≤ absSum vs
  | [] => by simp [absSum]
  | v :: vs => by
    have := abs_sum_le vs
    simp only [absSum, List.map_cons, List.sum_cons] at this ⊢
    exact le_trans (abs_add_le _ _) (by linarith)

/-- One rounded addition. -/
theorem err_step (R : Flt.Rounding) {x y X Y A B c : Rat} (hc : 1 ≤ c) (hx : |x - X| ≤ (c - 1) * A) (hy : |y - Y| ≤ (c - 1) * B) (hA : |X| ≤ A) (hB : |Y| ≤ B) :
    |R.rnd (x + y) - (X + Y)| ≤ (c * (1 + 1 / 2 ^ 53) - 1) * (A + B) := by
  have e := R.err (x + y)
  have h1 : |x + y - (X + Y)| ≤ (c - 1) * (A + B) := by
    calc |x + y - (X + Y)| = |(x - X) + (y - Y)| := by ring_nf
      _ ≤ |x - X| + |y - Y| := abs_add_le _ _
      _ ≤ (c - 1) * (A + B) := by linarith
  have h2 : |x + y| ≤ c * (A + B) := by
    calc |x + y| = |(x + y - (X + Y)) + (X + Y)| := by ring_nf
      _ ≤ |x + y - (X + Y)| + |X + Y| := abs_add_le _ _
      _ ≤ (c - 1) * (A + B) + (A + B) := by linarith [abs_add_le X Y]
      _ = c * (A + B) := by ring
  calc |R.rnd (x + y) - (X + Y)| = |(R.rnd (x + y) - (x + y)) + (x + y - (X + Y))| := by ring_nf
    _ ≤ |R.rnd (x + y) - (x + y)| + |x + y - (X + Y)| := abs_add_le _ _
    _ ≤ c * (A + B) / 2 ^ 53 + (c - 1) * (A + B) := by
      have : |x + y| / 2 ^ 53 ≤ c * (A + B) / 2 ^ 53 := by linarith
      linarith
    _ = (c * (1 + 1 / 2 ^ 53) - 1) * (A + B) := by ring

theorem grow (n m : Nat) (h : n ≤ m) : (1 + 1 / 2 ^ 53 : Rat) ^ n ≤ (1 + 1 / 2 ^ 53) ^ m := pow_le_pow_right₀ (by norm_num) h

/-- The error of the sum. -/
theorem eval_err (R : Flt.Rounding) : ∀ h : Hist, |(eval R.rnd h).sum - (values h).sum| ≤ ((1 + 1 / 2 ^ 53) ^ calls h - 1) * absSum (values h)
  | .new => by simp [eval, reset, values, calls]
  | .reset _ => by simp [eval, reset, values, calls]
  | .add h v => by
    have h1 := eval_err R h
    have hc : (1 : Rat) ≤ (1 + 1 / 2 ^ 53) ^ calls h := one_le_pow₀ (by norm_num)
    have := err_step R (y := v) (Y := v) (B := |v|) hc h1 (by rw [sub_self, abs_zero]; exact mul_nonneg (by linarith) (abs_nonneg _)) (abs_sum_le _) (le_refl _)
    simp only [eval, add, values, calls, absSum_append]
    rw [pow_succ]
    simpa [absSum] using this
  | .merge h h' => by
    have h1 := eval_err R h
    have h2 := eval_err R h'
    have hc : (1 : Rat) ≤ (1 + 1 / 2 ^ 53) ^ max (calls h) (calls h') := one_le_pow₀ (by norm_num)
    have g1 := grow _ _ (Nat.le_max_left (calls h) (calls h'))
    have g2 := grow _ _ (Nat.le_max_right (calls h) (calls h'))
    have := err_step R hc (le_trans h1 (mul_le_mul_of_nonneg_right (by linarith) (absSum_nonneg _)))
      (le_trans h2 (mul_le_mul_of_nonneg_right (by linarith) (absSum_nonneg _))) (abs_sum_le _) (abs_sum_le _)
    simp only [eval, merge, values, calls, absSum_append]
    rw [pow_succ, List.sum_append]
    exact this

def IsInt (v : Rat) : Prop := ∃ m : Int, v = m

theorem sum_int : ∀ {vs : List Rat}, (∀ v ∈ vs, IsInt v) → IsInt vs.sum ∧ IsInt (vs.map (· ^ 2)).sum ∧ |vs.sum| ≤ (vs.map (· ^ 2)).sum
  | [], _ => ⟨⟨0, by simp⟩, ⟨0, by simp⟩, by simp⟩
  | v :: vs, h => by
    obtain ⟨⟨a, ha⟩, ⟨b, hb⟩, hc⟩ := sum_int (vs := vs) fun x hx => h x (List.mem_cons_of_mem _ hx)
    obtain ⟨m, hm⟩ := h v List.mem_cons_self
    refine ⟨⟨m + a, by simp [ha, hm]⟩, ⟨m ^ 2 + b, by simp [hb, hm]⟩, ?_⟩
    simp only [List.map_cons, List.sum_cons]
    have h1 : |v| ≤ v ^ 2 := by
      rw [hm, ← Int.cast_abs]
      have : |m| ≤ m ^ 2 := by
        rw [← sq_abs]
        rcases eq_or_lt_of_le (abs_nonneg m) with h | h
        · rw [← h]; norm_num
        · nlinarith
      exact_mod_cast this
    exact le_trans (abs_add_le _ _) (by linarith)

theorem int_exact (R : Flt.Rounding) {x : Rat} (h : IsInt x) (hb : |x| ≤ 2 ^ 53) : R.rnd x = x := by
  obtain ⟨m, rfl⟩ := h
  refine R.exact (Flt.isDouble_int m ?_)
  rw [← Int.cast_abs] at hb
  exact_mod_cast hb

end Verif.Stats
