import Verif.Str.DoubleSpec

/-! # C191: which strings `stringToDouble` accepts -/

namespace Verif.Str.Dbl

/-- C191. A string without NUL characters is converted exactly when it is a number (blanks may stand
before it, nothing may follow), and the number is the one it spells; every other stops the program. -/
theorem toDouble_partial (s : Str) (h0 : ∀ b ∈ s, b.val ≠ 0) :
    (∀ v, stringToDouble s = .ok v ↔ Spec.IsNumber s v) ∧ ((∀ v, ¬ Spec.IsNumber s v) → stringToDouble s = .abort) := by
  simp only [Spec.isNumber_iff]
  have hc : cStr s = s := by
    have := (takeWhile_all (p := fun b => decide (b.val ≠ 0)) (a := s) (b := []) (fun b hb => by simpa using h0 b hb) (by simp)).1
    rwa [List.append_nil] at this
  by_cases hs : s = []
  · subst hs
    have hno : ∀ v, ¬ IsNumber [] v := by
      rintro v ⟨sp, sg, neg, w, _, _, hb, he⟩
      obtain ⟨b, r, rfl, _⟩ := body_head hb
      simp at he
    refine ⟨fun v => ⟨fun h => ?_, fun h => absurd h (hno v)⟩, fun _ => rfl⟩
    cases h
  · have hl : s.length > 0 := List.length_pos_iff.mpr hs
    have he : stringToDouble s = if (strtod s).2 = [] then .ok (strtod s).1 else .abort := by
      simp only [stringToDouble, hl, decide_true, Res.require_true, Res.bind_ok, hc]
      by_cases hr : (strtod s).2 = []
      · simp [hr]
      · simp [hr]
    have hiff : ∀ v, stringToDouble s = .ok v ↔ strtod s = (v, []) := by
      intro v
      rw [he]
      constructor
      · intro h
        split at h
        · rename_i hr
          cases h
          exact Prod.ext rfl hr
        · cases h
      · intro h
        rw [h]
        rfl
    refine ⟨fun v => by rw [hiff, strtod_iff hs], ?_⟩
    intro hno
    rw [he, if_neg]
    intro hr
    exact hno (strtod s).1 ((strtod_iff hs _).mp (Prod.ext rfl hr))

/-- C191. With NUL characters in it, a string is judged by what stands before the first one; if
nothing does the result is zero. -/
theorem toDouble_nul (a b : Str) (ha : ∀ x ∈ a, x.val ≠ 0) :
    stringToDouble (a ++ 0 :: b) = if a = [] then .ok (.fin false 10 10 0 0 0) else stringToDouble a := by
  have h := (takeWhile_all (p := fun b => decide (b.val ≠ 0)) (a := a) (b := 0 :: b) (fun b hb => by simpa using ha b hb)
    (fun x hx => by simp only [List.head?_cons, Option.some.injEq] at hx; subst hx; decide)).1
  have h2 := (takeWhile_all (p := fun b => decide (b.val ≠ 0)) (a := a) (b := []) (fun b hb => by simpa using ha b hb) (by simp)).1
  rw [List.append_nil] at h2
  by_cases hn : a = []
  · subst hn
    rw [if_pos rfl]
    have : cStr ([] ++ 0 :: b) = [] := h
    simp only [stringToDouble, this]
    simp only [List.nil_append, List.length_cons, Nat.zero_lt_succ, gt_iff_lt, decide_true, Res.require_true, Res.bind_ok]
    rfl
  · have hl : (a ++ 0 :: b).length > 0 := by simp only [List.length_append, List.length_cons]; omega
    have hl2 : a.length > 0 := List.length_pos_iff.mpr hn
    have e1 : cStr (a ++ 0 :: b) = a := h
    have e2 : cStr a = a := h2
    rw [if_neg hn]
    simp only [stringToDouble, e1, e2, hl, hl2, decide_true]

/-- C191 is false in full: a string with something after a number, behind a NUL, is converted. -/
theorem toDouble_junk_false : ∃ s v, stringToDouble s = .ok v ∧ ∀ u, ¬ Spec.IsNumber s u := by
  simp only [Spec.isNumber_iff]
  refine ⟨[49, 46, 53, 0, 106], .fin false 10 10 15 1 0, by decide +kernel, ?_⟩
  intro u hu
  have h := (strtod_iff (by simp) u).mpr hu
  have : (strtod [49, 46, 53, 0, 106]).2 ≠ [] := by decide +kernel
  exact this (by rw [h])

/-- C191 is false in full: a string with no digit at all, that is not empty, is zero. -/
theorem toDouble_zero_false : ∃ s, s ≠ [] ∧ stringToDouble s = .ok (.fin false 10 10 0 0 0) ∧ ∀ u, ¬ Spec.IsNumber s u := by
  simp only [Spec.isNumber_iff]
  refine ⟨[0], by simp, by decide +kernel, ?_⟩
  intro u hu
  have h := (strtod_iff (by simp) u).mpr hu
  have : (strtod [0]).2 ≠ [] := by decide +kernel
  exact this (by rw [h])

/-- ` -12.50e-3`: 1250 with two digits after the point, times ten to the minus three. -/
example : stringToDouble [32, 45, 49, 50, 46, 53, 48, 101, 45, 51] = .ok (.fin true 10 10 1250 2 (-3)) := by decide +kernel
example : stringToDouble [48, 88, 49, 46, 56, 112, 43, 52] = .ok (.fin false 16 2 24 1 4) := by decide +kernel
example : stringToDouble [46] = .abort := by decide +kernel
example : stringToDouble [49, 101] = .abort := by decide +kernel
example : stringToDouble [49, 32] = .abort := by decide +kernel
example : ∃ v, Spec.IsNumber [45, 46, 53] v := by
  simp only [Spec.isNumber_iff]
  exact ⟨.fin true 10 10 5 1 0, [], [45], true, [46, 53], by simp, Or.inr (Or.inr ⟨rfl, rfl⟩),
    Or.inl ⟨[], [53], [], 0, by simp, (by intro d hd; rw [List.mem_singleton] at hd; subst hd; decide +kernel), by simp, Or.inl ⟨rfl, rfl⟩, Or.inr rfl, by decide +kernel⟩, rfl⟩

end Verif.Str.Dbl
