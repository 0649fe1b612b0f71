import Verif.Batch.Shuffle

/-! # C125 and C126: the order of things, and dividing them into jobs -/

namespace Verif.Batch
variable {α : Type}

theorem set_perm {l : List α} {k : Nat} {a b : α} (h : l[k]? = some a) : (b :: l).Perm (a :: l.set k b) := by
  induction l generalizing k with
  | nil => simp at h
  | cons x l ih =>
    cases k with
    | zero =>
      simp only [List.getElem?_cons_zero, Option.some.injEq] at h
      subst h
      simp only [List.set_cons_zero]
      exact List.Perm.swap ..
    | succ k =>
      simp only [List.getElem?_cons_succ] at h
      simp only [List.set_cons_succ]
      exact (List.Perm.swap ..).trans (((ih h).cons x).trans (List.Perm.swap ..))

theorem swap_perm (l : List α) (i j : Nat) (hij : j < i) : (swap l i j).Perm l := by
  induction l generalizing i j with
  | nil => simp [swap]
  | cons x l ih =>
    cases i with
    | zero => omega
    | succ i =>
      cases j with
      | zero =>
        simp only [swap, List.getElem?_cons_succ, List.getElem?_cons_zero]
        cases ha : l[i]? with
        | none => exact List.Perm.refl _
        | some a =>
          simp only [List.set_cons_succ, List.set_cons_zero]
          exact (set_perm ha).symm
      | succ j =>
        have e : swap (x :: l) (i + 1) (j + 1) = x :: swap l i j := by
          simp only [swap, List.getElem?_cons_succ]
          cases l[i]? <;> cases l[j]? <;> simp
        rw [e]
        exact (ih i j (by omega)).cons x

theorem swap_length (l : List α) (i j : Nat) : (swap l i j).length = l.length := by
  unfold swap
  split <;> simp

theorem swap_get (l : List α) {i j : Nat} (hi : i < l.length) (hj : j < i) (k : Nat) :
    (swap l i j)[k]? = if k = i then l[j]? else if k = j then l[i]? else l[k]? := by
  unfold swap
  rw [List.getElem?_eq_getElem hi, List.getElem?_eq_getElem (show j < l.length by omega)]
  simp only [List.getElem?_set, List.length_set]
  grind

theorem shuffleFrom_perm (draw : Nat → Nat) (l : List α) (i : Nat) (hi : 0 < i) : (shuffleFrom draw l i).Perm l := by
  fun_induction shuffleFrom draw l i with
  | case1 l i h ih => exact (ih (by omega)).trans (swap_perm l i _ (Nat.mod_lt _ hi))
  | case2 => exact List.Perm.refl _

/-- **C125.** Shuffling neither loses nor doubles anything, whatever the random numbers. -/
theorem shuffle_perm (draw : Nat → Nat) (l : List α) : (shuffle draw l).Perm l := shuffleFrom_perm draw l 1 (by omega)

/-- The part below `i` is made of the part below `i`, and nothing is at its place. -/
def Moved (l₀ l : List α) (i : Nat) : Prop := l.length = l₀.length ∧ (∀ k, i ≤ k → l[k]? = l₀[k]?) ∧ ∀ k, k < i → ∃ k', k' < i ∧ l[k]? = l₀[k']? ∧ (2 ≤ i → k' ≠ k)

theorem moved_step {l₀ l : List α} {i j : Nat} (h : Moved l₀ l i) (h0 : 0 < i) (hi : i < l.length) (hj : j < i) : Moved l₀ (swap l i j) (i + 1) := by
  obtain ⟨h1, h2, h3⟩ := h
  refine ⟨by rw [swap_length, h1], ?_, ?_⟩
  · intro k hk
    rw [swap_get l hi hj, if_neg (by omega), if_neg (by omega)]
    exact h2 k (by omega)
  · intro k hk
    rw [swap_get l hi hj]
    by_cases ki : k = i
    · obtain ⟨k', h4, h5, _⟩ := h3 j hj
      exact ⟨k', by omega, by rw [if_pos ki, h5], fun _ => by omega⟩
    · rw [if_neg ki]
      by_cases kj : k = j
      · exact ⟨i, by omega, by rw [if_pos kj, h2 i (Nat.le_refl _)], fun _ => by omega⟩
      · rw [if_neg kj]
        obtain ⟨k', h4, h5, h6⟩ := h3 k (by omega)
        refine ⟨k', by omega, h5, fun _ => h6 (by omega)⟩

theorem moved_from (draw : Nat → Nat) (l₀ l : List α) (i : Nat) (h0 : 0 < i) (hl : i ≤ l.length) (h : Moved l₀ l i) : Moved l₀ (shuffleFrom draw l i) l₀.length := by
  fun_induction shuffleFrom draw l i with
  | case1 l i hi ih =>
    have hj := Nat.mod_lt (draw i) h0
    exact ih (by omega) (by rw [swap_length]; omega) (moved_step h h0 hi hj)
  | case2 l i hi =>
    have : i = l₀.length := by have := h.1; omega
    rw [← this]
    exact h

/-- **C125.** That every order can come out is false: of two or more different things none stays at its place, whatever the random numbers; so the first is never started first. -/
theorem shuffle_orders_false (draw : Nat → Nat) (l : List α) (hn : l.Nodup) (h2 : 2 ≤ l.length) (k : Nat) (hk : k < l.length) : (shuffle draw l)[k]? ≠ l[k]? := by
  have hm := moved_from draw l l 1 (by omega) (by omega) ⟨rfl, fun _ _ => rfl, fun k hk => ⟨k, hk, rfl, by omega⟩⟩
  obtain ⟨k', h3, h4, h5⟩ := hm.2.2 k hk
  intro he
  unfold shuffle at he
  rw [h4] at he
  have := (List.getElem?_inj h3 hn).1 he
  exact h5 h2 this

example : shuffle (fun _ => 5) ["a", "b", "c"] = ["b", "c", "a"] ∧ shuffle (fun _ => 4) ["a", "b", "c"] = ["c", "a", "b"] := by decide +kernel

theorem ceilDiv_mul {n d : Nat} (hd : 0 < d) : n ≤ ceilDiv n d * d ∧ ∀ k, k < ceilDiv n d → k * d < n := by
  unfold ceilDiv
  have h := Nat.div_add_mod (n + d - 1) d
  have h' := Nat.mod_lt (n + d - 1) hd
  rw [Nat.mul_comm] at h
  generalize (n + d - 1) / d = q at *
  refine ⟨by omega, fun k hk => ?_⟩
  have : (k + 1) * d ≤ q * d := Nat.mul_le_mul_right d hk
  rw [Nat.add_mul] at this
  omega

theorem ceilDiv_le {n d m : Nat} (hd : 0 < d) (h : n ≤ m * d) : ceilDiv n d ≤ m := by
  apply Nat.le_of_not_lt
  intro hlt
  have := (ceilDiv_mul hd).2 m hlt
  omega

/-- **C126.** The jobs divide the things: every job from 1 to the number of jobs has between 1 and `size` things, other numbers die, and all the jobs together do every thing once, in order. -/
theorem jobs_divide (things : List α) (size : Nat) (hs : 0 < size) :
    (∀ index, (jobThings things size index).isSome ↔ 1 ≤ index ∧ index ≤ njobs things.length size) ∧
    (∀ index part, jobThings things size index = some part → 1 ≤ part.length ∧ part.length ≤ size) ∧
    ((List.range (njobs things.length size)).map fun i => (jobThings things size (i + 1)).getD []).flatten = things := by
  have hc := ceilDiv_mul (n := things.length) hs
  unfold njobs
  refine ⟨?_, ?_, ?_⟩
  · intro index
    unfold jobThings
    by_cases h0 : index = 0
    · simp [h0]
    · rw [if_neg h0]
      obtain ⟨k, rfl⟩ : ∃ k, index = k + 1 := ⟨index - 1, by omega⟩
      simp only [Nat.add_sub_cancel]
      by_cases hk : k < ceilDiv things.length size
      · have := hc.2 k hk
        rw [if_pos (by omega)]
        simp; omega
      · rw [if_neg]
        · simp; omega
        · have : ceilDiv things.length size * size ≤ k * size := Nat.mul_le_mul_right _ (by omega)
          omega
  · intro index part h
    unfold jobThings at h
    by_cases h0 : index = 0
    · simp [h0] at h
    · rw [if_neg h0] at h
      simp only at h
      split at h
      · simp only [Option.some.injEq] at h
        subst h
        simp only [List.length_take, List.length_drop]
        omega
      · cases h
  · have key : ∀ m, m ≤ ceilDiv things.length size → ((List.range m).map fun i => (jobThings things size (i + 1)).getD []).flatten = things.take (m * size) := by
      intro m
      induction m with
      | zero => simp
      | succ m ih =>
        intro hm
        rw [List.range_succ, List.map_append, List.flatten_append, ih (by omega)]
        have hlt := hc.2 m (by omega)
        simp only [List.map_cons, List.map_nil, List.flatten_cons, List.flatten_nil, List.append_nil]
        unfold jobThings
        rw [if_neg (by omega)]
        simp only [Nat.add_sub_cancel]
        rw [if_pos (by omega), Option.getD_some]
        rw [Nat.add_mul, Nat.one_mul, List.take_add]
        congr 1
        by_cases hle : m * size + size ≤ things.length
        · rw [Nat.min_eq_left hle]; congr 1; omega
        · rw [Nat.min_eq_right (by omega), List.take_of_length_le (by simp), List.take_of_length_le (by simp; omega)]
    rw [key _ (Nat.le_refl _), List.take_of_length_le hc.1]

example : (List.range (njobs 7 3)).map (fun i => jobThings ["a", "b", "c", "d", "e", "f", "g"] 3 (i + 1)) = [some ["a", "b", "c"], some ["d", "e", "f"], some ["g"]] := by decide

/-- **C126.** The size of a group is the one asked for; or the number of groups is at most the one asked for, or at most five times the width and what the queueing system (or 1000) allows. It dies exactly when one of these is 0. -/
theorem batch_size (n : Nat) (hn : 0 < n) (groupsize maxgroups : Option Nat) (width : Nat) (limit : Option Nat) :
    (batchSize n groupsize maxgroups width limit = none ↔ match groupsize, maxgroups with | some g, _ => g = 0 | none, some m => m = 0 | none, none => width = 0 ∨ limit = some 0) ∧
    ∀ size, batchSize n groupsize maxgroups width limit = some size → 0 < size ∧
      match groupsize, maxgroups with | some g, _ => size = g | none, some m => njobs n size ≤ m | none, none => njobs n size ≤ width * 5 ∧ njobs n size ≤ limit.getD 1000 := by
  have one : njobs n 1 = n := by simp [njobs, ceilDiv]
  have grp : ∀ m, 0 < m → m ≤ n → 0 < ceilDiv n m ∧ njobs n (ceilDiv n m) ≤ m := by
    intro m h1 h2
    have hc := ceilDiv_mul (n := n) h1
    have hpos : 0 < ceilDiv n m := by
      rcases Nat.eq_zero_or_pos (ceilDiv n m) with h | h
      · rw [h] at hc; omega
      · exact h
    exact ⟨hpos, ceilDiv_le hpos (by rw [Nat.mul_comm]; exact hc.1)⟩
  unfold batchSize
  cases groupsize with
  | some g =>
    simp only
    by_cases hg : g = 0
    · simp [hg]
    · rw [if_neg hg, if_neg (by omega)]
      simp [hg]; omega
  | none =>
    cases maxgroups with
    | some m =>
      simp only
      by_cases hm : n ≥ m
      · rw [if_pos hm]
        by_cases h0 : m = 0
        · simp [h0]
        · rw [if_neg h0]
          have := grp m (by omega) hm
          simp [h0, this]
      · rw [if_neg hm]
        simp only [reduceCtorEq, false_iff, Option.some.injEq]
        refine ⟨by omega, ?_⟩
        rintro _ rfl
        rw [one]; omega
    | none =>
      simp only
      generalize hL : limit.getD 1000 = L
      have hz : min (width * 5) L = 0 ↔ width = 0 ∨ limit = some 0 := by
        cases limit with
        | none => simp at hL; subst hL; simp; omega
        | some v => simp at hL; subst hL; simp; omega
      rw [← hz]
      generalize hM : min (width * 5) L = M
      by_cases hm : n ≥ M
      · rw [if_pos hm]
        by_cases h0 : M = 0
        · simp [h0]
        · rw [if_neg h0]
          have := grp M (by omega) hm
          simp only [reduceCtorEq, h0, Option.some.injEq, true_and]
          rintro _ rfl
          exact ⟨this.1, by omega, by omega⟩
      · rw [if_neg hm]
        simp only [reduceCtorEq, false_iff, Option.some.injEq]
        refine ⟨by omega, ?_⟩
        rintro _ rfl
        rw [one]; omega

example : batchSize 7 none (some 3) 10 none = some 3 ∧ njobs 7 3 = 3 ∧ batchSize 30000 none none 300 none = some 30 := by decide

end Verif.Batch
