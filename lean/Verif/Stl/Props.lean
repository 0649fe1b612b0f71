import Verif.Stl.Model

/-! # Properties of `iteratorRangeEqual` (C55) -/

namespace Verif.Stl

variable {α β : Type}

/-- Element-wise equality of two lists: the same length, and no position where the elements differ. -/
def Same (ne : α → β → Bool) (a : List α) (b : List β) : Prop :=
  a.length = b.length ∧ ∀ (k : Nat) (x : α) (y : β), a[k]? = some x → b[k]? = some y → ne x y = false

/-- The elements in positions `[first, last)`. -/
def range (l : List α) (first last : Nat) : List α := (l.take last).drop first

theorem same_cons (ne : α → β → Bool) (x : α) (y : β) (a : List α) (b : List β) :
    Same ne (x :: a) (y :: b) ↔ ne x y = false ∧ Same ne a b := by
  constructor
  · rintro ⟨h1, h2⟩
    exact ⟨h2 0 x y rfl rfl, by simpa using h1, fun k u v hu hv => h2 (k + 1) u v (by simpa using hu) (by simpa using hv)⟩
  · rintro ⟨h1, h2, h3⟩
    refine ⟨by simpa using h2, fun k u v hu hv => ?_⟩
    cases k with
    | zero => simp at hu hv; subst hu; subst hv; exact h1
    | succ k => exact h3 k u v (by simpa using hu) (by simpa using hv)

theorem range_nil (l : List α) (i : Nat) : range l i i = [] := by
  unfold range
  rw [List.drop_eq_nil_of_le]
  rw [List.length_take]; omega

theorem range_cons (l : List α) {i last : Nat} (h1 : i < last) (h2 : last ≤ l.length) :
    range l i last = l[i]'(by omega) :: range l (i + 1) last := by
  unfold range
  rw [List.drop_eq_getElem_cons (by rw [List.length_take]; omega), List.getElem_take]

theorem loop_eq (ne : α → β → Bool) (l1 : List α) (last1 : Nat) (l2 : List β) (last2 : Nat) (hl1 : last1 ≤ l1.length)
    (hl2 : last2 ≤ l2.length) : ∀ (fuel i j : Nat), i ≤ last1 → j ≤ last2 → last1 - i < fuel →
    ∃ b, loop ne l1 last1 l2 last2 fuel i j = .ok b ∧ (b = true ↔ Same ne (range l1 i last1) (range l2 j last2))
  | 0, i, j, _, _, hf => absurd hf (Nat.not_lt_zero _)
  | fuel + 1, i, j, hi, hj, hf => by
    unfold loop
    by_cases h1 : i = last1
    · subst h1
      rw [if_pos rfl]
      refine ⟨_, rfl, ?_⟩
      rw [range_nil, decide_eq_true_eq]
      by_cases h2 : j = last2
      · subst h2
        simp [range_nil, Same]
      · rw [range_cons l2 (by omega) hl2]
        simp [Same, h2]
    · rw [if_neg h1]
      by_cases h2 : j = last2
      · subst h2
        rw [if_pos rfl]
        refine ⟨_, rfl, ?_⟩
        rw [range_nil, range_cons l1 (by omega) hl1]
        simp [Same]
      · rw [if_neg h2, range_cons l1 (by omega) hl1, range_cons l2 (by omega) hl2, same_cons]
        have d1 : deref l1 i = .ok (l1[i]'(by omega)) := by unfold deref; rw [List.getElem?_eq_getElem (by omega)]
        have d2 : deref l2 j = .ok (l2[j]'(by omega)) := by unfold deref; rw [List.getElem?_eq_getElem (by omega)]
        unfold body
        rw [d1, d2, Res.bind_ok, Res.bind_ok]
        cases hne : ne (l1[i]'(by omega)) (l2[j]'(by omega)) with
        | true => exact ⟨false, rfl, by simp⟩
        | false =>
          obtain ⟨b, hb, hiff⟩ := loop_eq ne l1 last1 l2 last2 hl1 hl2 fuel (i + 1) (j + 1) (by omega) (by omega) (by omega)
          refine ⟨b, ?_, ?_⟩
          · rw [show next l1 i = .ok (i + 1) from if_pos (by omega), show next l2 j = .ok (j + 1) from if_pos (by omega)]
            exact hb
          · rw [hiff]; simp

/-- **C55.** For all valid ranges of all containers, `iteratorRangeEqual` returns, without reading or stepping outside either
container, and returns true exactly if the ranges have equal lengths and no position where the elements differ. -/
theorem rangeEqual_iff_same (ne : α → β → Bool) (l1 : List α) (first1 last1 : Nat) (l2 : List β) (first2 last2 : Nat)
    (h1 : first1 ≤ last1) (hl1 : last1 ≤ l1.length) (h2 : first2 ≤ last2) (hl2 : last2 ≤ l2.length) :
    ∃ b, iteratorRangeEqual ne l1 first1 last1 l2 first2 last2 = .ok b ∧
      (b = true ↔ Same ne (range l1 first1 last1) (range l2 first2 last2)) :=
  loop_eq ne l1 last1 l2 last2 hl1 hl2 _ _ _ h1 h2 (by omega)

example : iteratorRangeEqual (fun a b : Nat => a != b) [1, 2, 3, 4] 1 3 [9, 2, 3] 1 3 = .ok true := rfl
example : iteratorRangeEqual (fun a b : Nat => a != b) [1, 2, 3, 4] 1 3 [2, 3, 5] 0 3 = .ok false := rfl

/-- **C55, lists.** On whole containers of one type with ordinary equality it decides equality of the containers. -/
theorem rangeEqual_eq [DecidableEq α] (a b : List α) :
    iteratorRangeEqual (fun x y => decide (x ≠ y)) a 0 a.length b 0 b.length = .ok (decide (a = b)) := by
  obtain ⟨r, hr, hiff⟩ := rangeEqual_iff_same (fun x y => decide (x ≠ y)) a 0 a.length b 0 b.length (Nat.zero_le _) (Nat.le_refl _)
    (Nat.zero_le _) (Nat.le_refl _)
  rw [hr]
  have h : Same (fun x y : α => decide (x ≠ y)) a b ↔ a = b := by
    constructor
    · rintro ⟨h1, h2⟩
      refine List.ext_getElem h1 fun k hk hk' => ?_
      have := h2 k a[k] b[k] (List.getElem?_eq_getElem hk) (List.getElem?_eq_getElem hk')
      simpa using this
    · rintro rfl
      refine ⟨rfl, fun k x y hx hy => ?_⟩
      rw [hx] at hy
      cases hy
      simp
  have e1 : range a 0 a.length = a := by simp [range]
  have e2 : range b 0 b.length = b := by simp [range]
  rw [e1, e2, h] at hiff
  congr 1
  by_cases hab : a = b
  · simp [hab, hiff.2 hab]
  · simp only [hab, decide_false]
    cases r with
    | false => rfl
    | true => exact absurd (hiff.1 rfl) hab

end Verif.Stl
