import Verif.Histo.Spec
import Verif.Stats.Props
import Verif.PQ.Lemmas
import Mathlib.Algebra.BigOperators.Group.List.Basic

/-! # Lemmas about histograms -/

namespace Verif.Histo

open Verif

/-! ## Tallies -/

section
variable {α : Type} [AddCommMonoid α]

/-- The sum of what has key `i`. -/
def at' (i : Nat) (ks : List (Nat × α)) : α := (ks.map fun x => if x.1 = i then x.2 else 0).sum

/-- For each key below `n`, the sum of what has it. -/
def tally (n : Nat) (ks : List (Nat × α)) : List α := (List.range n).map fun i => at' i ks

theorem at_nil (i : Nat) : at' i ([] : List (Nat × α)) = 0 := rfl

theorem at_append (i : Nat) (a b : List (Nat × α)) : at' i (a ++ b) = at' i a + at' i b := by simp [at']

theorem at_cons (i : Nat) (x : Nat × α) (b : List (Nat × α)) : at' i (x :: b) = (if x.1 = i then x.2 else 0) + at' i b := by simp [at']

@[simp] theorem tally_length (n : Nat) (ks : List (Nat × α)) : (tally n ks).length = n := by simp [tally]

theorem tally_get {n i : Nat} (ks : List (Nat × α)) (h : i < n) : (tally n ks)[i]? = some (at' i ks) := by
  simp [tally, h]

theorem eq_tally {n : Nat} {b : List α} {ks : List (Nat × α)} (hl : b.length = n) (h : ∀ i, i < n → b[i]? = some (at' i ks)) : b = tally n ks := by
  apply List.ext_getElem?
  intro i
  by_cases hi : i < n
  · rw [h i hi, tally_get ks hi]
  · rw [List.getElem?_eq_none (by omega), List.getElem?_eq_none (by simp; omega)]

theorem tally_nil (n : Nat) : tally n ([] : List (Nat × α)) = List.replicate n 0 := by
  refine (eq_tally (by simp) fun i hi => ?_).symm
  simp [hi, at_nil]

theorem at_map_key (f : Nat → Nat) (i : Nat) (js : List Nat) (hn : js.Nodup) : ∀ ks : List (Nat × α), (∀ x ∈ ks, f x.1 = i ↔ x.1 ∈ js) →
    at' i (ks.map fun x => (f x.1, x.2)) = (js.map fun j => at' j ks).sum
  | [], _ => by
    have : ∀ l : List Nat, (l.map fun j => at' j ([] : List (Nat × α))).sum = 0 := by
      intro l
      induction l with
      | nil => rfl
      | cons a l ih => rw [List.map_cons, List.sum_cons, ih, at_nil, add_zero]
    rw [this]; rfl
  | x :: ks, h => by
    have ih := at_map_key f i js hn ks fun y hy => h y (List.mem_cons_of_mem _ hy)
    have hx := h x List.mem_cons_self
    rw [List.map_cons, at_cons, ih]
    have : ∀ l : List Nat, l.Nodup → (l.map fun j => at' j (x :: ks)).sum = (if x.1 ∈ l then x.2 else 0) + (l.map fun j => at' j ks).sum := by
      intro l
      induction l with
      | nil => intro _; simp
      | cons a l ih =>
        intro hl
        rw [List.nodup_cons] at hl
        rw [List.map_cons, List.sum_cons, ih hl.2, at_cons, List.map_cons, List.sum_cons]
        by_cases ha : x.1 = a
        · have : x.1 ∉ l := by rw [ha]; exact hl.1
          rw [if_pos ha, if_neg this, if_pos (by simp [ha])]
          rw [zero_add, add_assoc]
        · rw [if_neg ha]
          by_cases hxl : x.1 ∈ l
          · rw [if_pos hxl, if_pos (by simp [hxl]), zero_add, add_left_comm]
          · rw [if_neg hxl, if_neg (by simp [ha, hxl]), zero_add, zero_add, zero_add]
    rw [this js hn]
    congr 1
    by_cases hi : f x.1 = i
    · rw [if_pos hi, if_pos (hx.1 hi)]
    · rw [if_neg hi, if_neg (fun h => hi (hx.2 h))]

/-! ## The loops -/

theorem get_set (b : List α) (i j : Nat) (v : α) (hi : i < b.length) : (b.set i v)[j]? = if i = j then some v else b[j]? := by
  rw [List.getElem?_set]
  split
  · rename_i h; subst h; simp [hi]
  · rfl

/-- `pairDown` writes the upper half only; what it has yet to read is not touched. -/
theorem pairDown_ok (half : Nat) : ∀ (m : Nat) (b : List α), m ≤ half → b.length = 2 * half → ∃ b', pairDown (· + ·) half m b = .ok b' ∧ b'.length = b.length ∧
    (∀ j, half ≤ j → j < half + m → ∀ x y, b[2 * (j - half)]? = some x → b[2 * (j - half) + 1]? = some y → b'[j]? = some (x + y)) ∧
    (∀ j, ¬(half ≤ j ∧ j < half + m) → b'[j]? = b[j]?)
  | 0, b, _, _ => ⟨b, rfl, rfl, fun j h1 h2 => absurd h2 (by omega), fun _ _ => rfl⟩
  | m + 1, b, hm, hl => by
    have hx := PQ.rd_eq (0 : α) b (2 * m) (by omega)
    have hy := PQ.rd_eq (0 : α) b (2 * m + 1) (by omega)
    obtain ⟨b', e, l', h1, h2⟩ := pairDown_ok half m (b.set (half + m) (PQ.g 0 b (2 * m) + PQ.g 0 b (2 * m + 1))) (by omega) (by simpa using hl)
    refine ⟨b', ?_, by simpa using l', ?_, ?_⟩
    · rw [pairDown, hx, Res.bind_ok, hy, Res.bind_ok, PQ.wr_eq _ _ _ (by omega), Res.bind_ok, e]
    · intro j g1 g2 x y e1 e2
      by_cases hj : j = half + m
      · subst hj
        rw [h2 _ (by omega), get_set _ _ _ _ (by omega), if_pos rfl]
        rw [show half + m - half = m by omega] at e1 e2
        have f1 : PQ.g (0 : α) b (2 * m) = x := by unfold PQ.g; rw [List.getD_eq_getElem?_getD, e1]; rfl
        have f2 : PQ.g (0 : α) b (2 * m + 1) = y := by unfold PQ.g; rw [List.getD_eq_getElem?_getD, e2]; rfl
        rw [f1, f2]
      · refine h1 j g1 (by omega) x y ?_ ?_
        · rw [get_set _ _ _ _ (by omega), if_neg (by omega)]; exact e1
        · rw [get_set _ _ _ _ (by omega), if_neg (by omega)]; exact e2
    · intro j hj
      rw [h2 j (by omega), get_set _ _ _ _ (by omega), if_neg (by omega)]

theorem zeroDown_ok : ∀ (m : Nat) (b : List α), m ≤ b.length → ∃ b', zeroDown 0 m b = .ok b' ∧ b'.length = b.length ∧
    (∀ j, j < m → b'[j]? = some 0) ∧ (∀ j, m ≤ j → b'[j]? = b[j]?)
  | 0, b, _ => ⟨b, rfl, rfl, fun j h => absurd h (by omega), fun _ _ => rfl⟩
  | m + 1, b, hm => by
    obtain ⟨b', e, l', h1, h2⟩ := zeroDown_ok m (b.set m 0) (by simp; omega)
    refine ⟨b', ?_, by simpa using l', ?_, ?_⟩
    · rw [zeroDown, PQ.wr_eq _ _ _ (by omega), Res.bind_ok, e]
    · intro j hj
      by_cases h : j = m
      · subst h; rw [h2 _ (Nat.le_refl _), get_set _ _ _ _ (by omega), if_pos rfl]
      · exact h1 j (by omega)
    · intro j hj
      rw [h2 j (by omega), get_set _ _ _ _ (by omega), if_neg (by omega)]

theorem pairUp_ok : ∀ (m i : Nat) (b : List α), 2 * (i + m) ≤ b.length → ∃ b', pairUp (· + ·) i m b = .ok b' ∧ b'.length = b.length ∧
    (∀ j, i ≤ j → j < i + m → ∀ x y, b[2 * j]? = some x → b[2 * j + 1]? = some y → b'[j]? = some (x + y)) ∧
    (∀ j, ¬(i ≤ j ∧ j < i + m) → b'[j]? = b[j]?)
  | 0, i, b, _ => ⟨b, rfl, rfl, fun j h1 h2 => absurd h2 (by omega), fun _ _ => rfl⟩
  | m + 1, i, b, hl => by
    have hx := PQ.rd_eq (0 : α) b (2 * i) (by omega)
    have hy := PQ.rd_eq (0 : α) b (2 * i + 1) (by omega)
    obtain ⟨b', e, l', h1, h2⟩ := pairUp_ok m (i + 1) (b.set i (PQ.g 0 b (2 * i) + PQ.g 0 b (2 * i + 1))) (by simp; omega)
    refine ⟨b', ?_, by simpa using l', ?_, ?_⟩
    · rw [pairUp, hx, Res.bind_ok, hy, Res.bind_ok, PQ.wr_eq _ _ _ (by omega), Res.bind_ok, e]
    · intro j g1 g2 x y e1 e2
      by_cases hj : j = i
      · subst hj
        rw [h2 _ (by omega), get_set _ _ _ _ (by omega), if_pos rfl]
        have f1 : PQ.g (0 : α) b (2 * j) = x := by unfold PQ.g; rw [List.getD_eq_getElem?_getD, e1]; rfl
        have f2 : PQ.g (0 : α) b (2 * j + 1) = y := by unfold PQ.g; rw [List.getD_eq_getElem?_getD, e2]; rfl
        rw [f1, f2]
      · refine h1 j (by omega) (by omega) x y ?_ ?_
        · rw [get_set _ _ _ _ (by omega), if_neg (by omega)]; exact e1
        · rw [get_set _ _ _ _ (by omega), if_neg (by omega)]; exact e2
    · intro j hj
      rw [h2 j (by omega), get_set _ _ _ _ (by omega), if_neg (by omega)]

theorem zeroUp_ok : ∀ (m i : Nat) (b : List α), i + m ≤ b.length → ∃ b', zeroUp 0 i m b = .ok b' ∧ b'.length = b.length ∧
    (∀ j, i ≤ j → j < i + m → b'[j]? = some 0) ∧ (∀ j, ¬(i ≤ j ∧ j < i + m) → b'[j]? = b[j]?)
  | 0, i, b, _ => ⟨b, rfl, rfl, fun j h1 h2 => absurd h2 (by omega), fun _ _ => rfl⟩
  | m + 1, i, b, hm => by
    obtain ⟨b', e, l', h1, h2⟩ := zeroUp_ok m (i + 1) (b.set i 0) (by simp; omega)
    refine ⟨b', ?_, by simpa using l', ?_, ?_⟩
    · rw [zeroUp, PQ.wr_eq _ _ _ (by omega), Res.bind_ok, e]
    · intro j hj hj'
      by_cases h : j = i
      · subst h; rw [h2 _ (by omega), get_set _ _ _ _ (by omega), if_pos rfl]
      · exact h1 j (by omega) (by omega)
    · intro j hj
      rw [h2 j (by omega), get_set _ _ _ _ (by omega), if_neg (by omega)]

/-- Adding room at the lower end: everything moves to the upper half. -/
theorem halveDown_ok (half : Nat) (ks : List (Nat × α)) (hk : ∀ x ∈ ks, x.1 < 2 * half) :
    halveDown (· + ·) 0 (2 * half) (tally (2 * half) ks) = .ok (tally (2 * half) (ks.map fun x => (half + x.1 / 2, x.2))) := by
  unfold halveDown
  rw [Nat.mul_div_cancel_left _ (by omega)]
  obtain ⟨b, e, l, h1, h2⟩ := pairDown_ok half half (tally (2 * half) ks) (Nat.le_refl _) (by simp)
  obtain ⟨b', e', l', h1', h2'⟩ := zeroDown_ok half b (by rw [l]; simp; omega)
  rw [e, Res.bind_ok, e']
  congr 1
  refine eq_tally (by rw [l', l]; simp) fun i hi => ?_
  by_cases hlo : i < half
  · rw [h1' i hlo, at_map_key (fun k => half + k / 2) i [] List.nodup_nil ks (fun x _ => by simp; omega)]
    rfl
  · have g1 := h1 i (by omega) (by omega) _ _ (tally_get ks (by omega)) (tally_get ks (by omega))
    rw [h2' i (by omega), g1, at_map_key (fun k => half + k / 2) i [2 * (i - half), 2 * (i - half) + 1] (by simp) ks (fun x _ => by simp; omega)]
    simp

/-- Adding room at the upper end: everything moves to the lower half. -/
theorem halveUp_ok (half : Nat) (ks : List (Nat × α)) (hk : ∀ x ∈ ks, x.1 < 2 * half) :
    halveUp (· + ·) 0 (2 * half) (tally (2 * half) ks) = .ok (tally (2 * half) (ks.map fun x => (x.1 / 2, x.2))) := by
  unfold halveUp
  rw [Nat.mul_div_cancel_left _ (by omega)]
  obtain ⟨b, e, l, h1, h2⟩ := pairUp_ok half 0 (tally (2 * half) ks) (by simp)
  obtain ⟨b', e', l', h1', h2'⟩ := zeroUp_ok (2 * half - half) half b (by rw [l]; simp; omega)
  rw [e, Res.bind_ok, e']
  congr 1
  refine eq_tally (by rw [l', l]; simp) fun i hi => ?_
  by_cases hlo : i < half
  · have g1 := h1 i (by omega) (by omega) _ _ (tally_get ks (by omega)) (tally_get ks (by omega))
    rw [h2' i (by omega), g1, at_map_key (fun k => k / 2) i [2 * i, 2 * i + 1] (by simp) ks (fun x _ => by simp; omega)]
    simp
  · rw [h1' i (by omega) (by omega), at_map_key (fun k => k / 2) i [] List.nodup_nil ks (fun x hx => by have := hk x hx; simp; omega)]
    rfl

/-- Room at the ends without changing the width. -/
theorem tally_growUp (n m : Nat) (h : n ≤ m) (ks : List (Nat × α)) (hk : ∀ x ∈ ks, x.1 < n) : tally n ks ++ List.replicate (m - n) 0 = tally m ks := by
  refine eq_tally (by simp; omega) fun i hi => ?_
  by_cases hlo : i < n
  · rw [List.getElem?_append_left (by simpa using hlo), tally_get ks hlo]
  · rw [List.getElem?_append_right (by simp; omega), tally_length]
    have := at_map_key (fun k => k) i [] List.nodup_nil ks (fun x hx => by have := hk x hx; simp; omega)
    simp only [List.map_id'] at this
    rw [List.getElem?_replicate_of_lt (by omega), this]
    rfl

theorem tally_growDown (n m : Nat) (h : n ≤ m) (ks : List (Nat × α)) : List.replicate (m - n) 0 ++ tally n ks = tally m (ks.map fun x => (m - n + x.1, x.2)) := by
  refine eq_tally (by simp; omega) fun i hi => ?_
  by_cases hlo : i < m - n
  · rw [List.getElem?_append_left (by simpa using hlo), List.getElem?_replicate_of_lt hlo,
      at_map_key (fun k => m - n + k) i [] List.nodup_nil ks (fun x hx => by simp; omega)]
    rfl
  · rw [List.getElem?_append_right (by simp; omega), List.length_replicate, tally_get ks (by omega),
      at_map_key (fun k => m - n + k) i [i - (m - n)] (by simp) ks (fun x hx => by simp; omega)]
    simp

end

end Verif.Histo
