import Verif.Log.OutSpec
import Mathlib.Tactic.FieldSimp
import Mathlib.Tactic.Linarith
import Mathlib.Tactic.NormNum
import Mathlib.Algebra.Order.Field.Rat

/-! # The time that `consoleTimeAppender` prints -/

namespace Verif.Log.Out

theorem digit_char : ∀ d < 10, (Char.ofNat (48 + d)).toNat - 48 = d ∧ Char.ofNat (48 + d) ≠ '.' := by decide

theorem digitsValue_snoc (l : Txt) (c : Char) : digitsValue (l ++ [c]) = 10 * digitsValue l + (c.toNat - 48) := by simp [digitsValue]

theorem decimal_ok (n : Nat) : digitsValue (decimal n) = n ∧ (∀ c ∈ decimal n, c ≠ '.') ∧ n < 10 ^ (decimal n).length ∧ 1 ≤ (decimal n).length ∧
    (n ≠ 0 → 10 ^ ((decimal n).length - 1) ≤ n) := by
  fun_induction decimal n with
  | case1 n h =>
    obtain ⟨h1, h2⟩ := digit_char n h
    refine ⟨?_, by simpa using h2, by simpa using h, by simp, fun h0 => by simp; omega⟩
    simpa [digitsValue] using h1
  | case2 n h ih =>
    obtain ⟨i1, i2, i3, i4, i5⟩ := ih
    obtain ⟨h1, h2⟩ := digit_char (n % 10) (by omega)
    refine ⟨?_, ?_, ?_, by simp, fun _ => ?_⟩
    · rw [digitsValue_snoc, i1, h1]; omega
    · intro c hc
      rcases List.mem_append.1 hc with hc | hc
      · exact i2 c hc
      · rw [List.mem_singleton.1 hc]; exact h2
    · rw [List.length_append, List.length_singleton, Nat.pow_succ]; omega
    · rw [List.length_append, List.length_singleton, Nat.add_sub_cancel]
      have := i5 (by omega)
      obtain ⟨k, hk⟩ : ∃ k, (decimal (n / 10)).length = k + 1 := ⟨_, (Nat.sub_add_cancel i4).symm⟩
      rw [hk, Nat.add_sub_cancel] at this
      rw [hk, Nat.pow_succ]; omega

theorem takeWhile_dot : ∀ (a b : Txt), (∀ c ∈ a, c ≠ '.') → (a ++ '.' :: b).takeWhile (· ≠ '.') = a ∧ (a ++ '.' :: b).dropWhile (· ≠ '.') = '.' :: b
  | [], b, _ => by simp
  | x :: a, b, h => by
    obtain ⟨h1, h2⟩ := takeWhile_dot a b fun c hc => h c (List.mem_cons_of_mem _ hc)
    have hx : (decide (x ≠ '.')) = true := decide_eq_true (h x List.mem_cons_self)
    rw [List.cons_append, List.takeWhile_cons, List.dropWhile_cons, if_pos hx, if_pos hx, h1, h2]
    exact ⟨rfl, rfl⟩

theorem value_time (sec usec : Nat) : value (timeText sec usec) = sec + (usec : Rat) / 10 ^ (decimal usec).length := by
  obtain ⟨a1, a2, -⟩ := decimal_ok sec
  obtain ⟨b1, -⟩ := decimal_ok usec
  obtain ⟨t1, t2⟩ := takeWhile_dot (decimal sec) (decimal usec) a2
  have e : timeText sec usec = decimal sec ++ '.' :: decimal usec := by simp [timeText]
  unfold value
  rw [e]
  simp only [t1, t2, List.drop_succ_cons, List.drop_zero, a1, b1]

/-- C214. The number after `@` is the time in seconds exactly if the microseconds have six digits, or are zero. -/
theorem time_printed_partial (sec usec : Nat) (h : usec < 1000000) : value (timeText sec usec) = sec + (usec : Rat) / 1000000 ↔ usec = 0 ∨ 100000 ≤ usec := by
  obtain ⟨-, -, h3, h4, h5⟩ := decimal_ok usec
  rw [value_time]
  generalize (decimal usec).length = k at *
  by_cases h0 : usec = 0
  · simp [h0]
  · have hk : k ≤ 6 := by
      by_contra hc
      have : 10 ^ 6 ≤ 10 ^ (k - 1) := Nat.pow_le_pow_right (by norm_num) (by omega)
      have := h5 h0
      omega
    have hu : (0 : Rat) < usec := by exact_mod_cast Nat.pos_of_ne_zero h0
    constructor
    · intro he
      right
      have e2 : (usec : Rat) / 10 ^ k = usec / 1000000 := by linarith
      have e3 : (10 : Rat) ^ k = 1000000 := by
        rw [div_eq_div_iff (by positivity) (by norm_num)] at e2
        exact (mul_left_cancel₀ (ne_of_gt hu) e2).symm
      have e4 : 10 ^ k = 10 ^ 6 := by
        have : ((10 ^ k : Nat) : Rat) = ((10 ^ 6 : Nat) : Rat) := by push_cast; rw [e3]
        exact_mod_cast this
      have : k = 6 := Nat.pow_right_injective (le_refl 2 |>.trans (by norm_num)) e4
      subst this
      exact h5 h0
    · intro hc
      have hc : 100000 ≤ usec := by omega
      have : k = 6 := by
        by_contra hk6
        have : 10 ^ k ≤ 10 ^ 5 := Nat.pow_le_pow_right (by norm_num) (by omega)
        omega
      subst this
      norm_num

/-- C214, false of the code: 50 milliseconds after the fifth second is printed as half a second after it, and a later time as an earlier one. -/
theorem time_printed_false : timeText 5 50000 = "5.50000".toList ∧ value (timeText 5 50000) = 11 / 2 ∧ value (timeText 5 100000) < value (timeText 5 50000) := by
  have h1 : timeText 5 50000 = "5.50000".toList := by decide +kernel
  have l1 : (decimal 50000).length = 5 := by decide +kernel
  have l2 : (decimal 100000).length = 6 := by decide +kernel
  refine ⟨h1, ?_, ?_⟩
  · rw [value_time, l1]; norm_num
  · rw [value_time, value_time, l1, l2]; norm_num

end Verif.Log.Out
