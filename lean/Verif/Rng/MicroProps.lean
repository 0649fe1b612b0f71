import Verif.Rng.Bits
import Verif.Rng.MarsLemmas
import Mathlib.Data.Fintype.Pigeonhole
import Mathlib.Data.Fintype.BigOperators

/-! # C235: the Marsaglia generators run in circles: what their results give away and when they repeat -/

namespace Verif.Rng

/-! ## `MicroRandInner` -/

/-- The part of `t` that a result is made of is invertible. -/
theorem micro_mix_inj {x y : W} (h : (x ^^^ (x <<< 15)) ^^^ ((x ^^^ (x <<< 15)) >>> 4) = (y ^^^ (y <<< 15)) ^^^ ((y ^^^ (y <<< 15)) >>> 4)) : x = y := by
  have h1 := tri_inj (tri_shr 4 (by omega)) h
  have h2 : x ^^^ ((x <<< 15) &&& 0xffffffff#32) = y ^^^ ((y <<< 15) &&& 0xffffffff#32) := by
    rw [show (0xffffffff#32) = BitVec.allOnes 32 from rfl, BitVec.and_allOnes, BitVec.and_allOnes]; exact h1
  exact tri_inj (tri_shl 15 _ (by omega)) h2

theorem micro_prev {s t : Micro} (hx : s.next.1.x = t.next.1.x) (hw : s.next.1.w = t.next.1.w) : s.x = t.x ∧ s.w = t.w := by
  have h1 : s.w = t.w := hx
  refine ⟨?_, h1⟩
  have h2 : ((s.x ^^^ (s.x <<< 15)) ^^^ ((s.x ^^^ (s.x <<< 15)) >>> 4)) ^^^ (s.w ^^^ (s.w >>> 21)) = ((t.x ^^^ (t.x <<< 15)) ^^^ ((t.x ^^^ (t.x <<< 15)) >>> 4)) ^^^ (t.w ^^^ (t.w >>> 21)) := hw
  rw [h1] at h2
  exact micro_mix_inj (by
    have := congrArg (· ^^^ (t.w ^^^ (t.w >>> 21))) h2
    simpa [BitVec.xor_assoc] using this)

theorem micro_prev_n {s t : Micro} : ∀ (m n : Nat), (Micro.after (m + n) s).x = (Micro.after n t).x → (Micro.after (m + n) s).w = (Micro.after n t).w →
    (Micro.after m s).x = t.x ∧ (Micro.after m s).w = t.w
  | _, 0, hx, hw => ⟨hx, hw⟩
  | m, n + 1, hx, hw => by
    rw [← Nat.add_assoc, micro_after_succ, micro_after_succ] at hx hw
    obtain ⟨a, b⟩ := micro_prev hx hw
    exact micro_prev_n m n a b

theorem micro_out_after (s : Micro) : ∀ (m n : Nat), s.out (m + n) = (Micro.after m s).out n := by
  intro m
  induction m generalizing s with
  | zero => intro n; rw [Nat.zero_add]; rfl
  | succ m ih =>
    intro n
    rw [show m + 1 + n = (m + n) + 1 by omega]
    exact ih s.next.1 n

theorem micro_out_congr {s t : Micro} (hx : s.x = t.x) (hw : s.w = t.w) (n : Nat) : s.out n = t.out n := by
  have := micro_xw hx hw n
  show (_ ^^^ _) = (_ ^^^ _)
  rw [this.1, this.2]

/-- C235: two results in a row give away all others, later and earlier: generators that agree in results `m`, `m+1` of one and `n`, `n+1` of the other agree all along, shifted. -/
theorem micro_two_results (s t : Micro) (m n : Nat) (h0 : s.out (m + n) = t.out n) (h1 : s.out (m + n + 1) = t.out (n + 1)) : ∀ k, s.out (m + k) = t.out k := by
  have hw := micro_two s (m + n + 1)
  have hw' := micro_two t (n + 1)
  have hx := micro_x s (m + n + 1)
  have hx' := micro_x t (n + 1)
  rw [micro_two s (m + n)] at hx
  rw [micro_two t n] at hx'
  obtain ⟨a, b⟩ := micro_prev_n (s := s) (t := t) m (n + 1 + 1) (by rw [show m + (n + 1 + 1) = m + n + 1 + 1 by omega, hx, hx', h0])
    (by rw [show m + (n + 1 + 1) = m + n + 1 + 1 by omega, hw, hw', h1])
  intro k
  rw [micro_out_after]
  exact micro_out_congr a b k

/-- C235: whatever the state, the results repeat from the very first one on, after at most `2^64` of them (xorshift128 repeats after `2^128 - 1`). -/
theorem micro_periodic (s : Micro) : ∃ p, 0 < p ∧ p ≤ 18446744073709551616 ∧ ∀ n, s.out (p + n) = s.out n := by
  let f : Fin 18446744073709551617 → Fin 4294967296 × Fin 4294967296 := fun i => ((Micro.after i.1 s).x.toFin, (Micro.after i.1 s).w.toFin)
  have hcard : Fintype.card (Fin 4294967296 × Fin 4294967296) < Fintype.card (Fin 18446744073709551617) := by
    rw [Fintype.card_prod, Fintype.card_fin, Fintype.card_fin]; decide
  obtain ⟨i, j, hij, hf⟩ := Fintype.exists_ne_map_eq_of_card_lt f hcard
  have key : ∀ i j : Fin 18446744073709551617, i.1 < j.1 → f i = f j → ∃ p, 0 < p ∧ p ≤ 18446744073709551616 ∧ ∀ n, s.out (p + n) = s.out n := by
    intro i j hlt hf
    have hx : (Micro.after i.1 s).x = (Micro.after j.1 s).x := BitVec.toFin_inj.1 (congrArg (·.1) hf)
    have hw : (Micro.after i.1 s).w = (Micro.after j.1 s).w := BitVec.toFin_inj.1 (congrArg (·.2) hf)
    have hj : j.1 - i.1 + i.1 = j.1 := by omega
    obtain ⟨a, b⟩ := micro_prev_n (s := s) (t := s) (j.1 - i.1) i.1 (by rw [hj, hx]) (by rw [hj, hw])
    refine ⟨j.1 - i.1, by omega, by omega, fun n => ?_⟩
    rw [micro_out_after]
    exact micro_out_congr a b n
  rcases Nat.lt_trichotomy i.1 j.1 with h | h | h
  · exact key i j h hf
  · exact absurd (Fin.ext h) hij
  · exact key j i h hf.symm

/-- C235: a generator that gives two zeros in a row gives nothing else, before and after. -/
theorem micro_zeros (s : Micro) (n : Nat) (h0 : s.out n = 0) (h1 : s.out (n + 1) = 0) : ∀ k, s.out k = 0 := by
  have hz : ∀ k, (⟨0, 0, 0, 0⟩ : Micro).out k = 0 := by
    intro k
    have : ∀ k, Micro.after k (⟨0, 0, 0, 0⟩ : Micro) = ⟨0, 0, 0, 0⟩ := by
      intro k
      induction k with
      | zero => rfl
      | succ k ih => rw [micro_after_succ, ih]; decide
    unfold Micro.out
    rw [this k]; decide
  intro k
  have := micro_two_results s ⟨0, 0, 0, 0⟩ 0 n (by rw [Nat.zero_add, h0, hz]) (by rw [Nat.zero_add, h1, hz]) k
  rw [Nat.zero_add] at this
  rw [this, hz]

/-! ## `MarsagliaInner` -/

/-- One step of `marsStep` can be undone if the carry is below `A`. -/
theorem marsStep_back {A X C X' C' : Nat} (hA : A ≤ 4294967294) (hX : X ≤ 4294967295) (hX' : X' ≤ 4294967295) (hC : C < A) (hC' : C' < A)
    (h : marsStep A X C = marsStep A X' C') : X = X' ∧ C = C' := by
  obtain ⟨Y, y1, y2, y3, _, _⟩ := marsStep_facts hA hX (Nat.le_of_lt hC)
  obtain ⟨Z, z1, z2, z3, _, _⟩ := marsStep_facts hA hX' (Nat.le_of_lt hC')
  rw [h] at y2 y3
  rw [z3] at y3
  have hYZ : Y = Z := by omega
  have ht : A * X + C = A * X' + C' := by rw [y2, z2, hYZ]
  have hX2 : X = X' := by
    have e1 : (A * X + C) / A = X := by rw [Nat.mul_add_div (by omega), Nat.div_eq_of_lt hC, Nat.add_zero]
    have e2 : (A * X' + C') / A = X' := by rw [Nat.mul_add_div (by omega), Nat.div_eq_of_lt hC', Nat.add_zero]
    rw [← e1, ht, e2]
  exact ⟨hX2, by rw [hX2] at ht; omega⟩

/-- C235: a step from a state with a carry below `A`, as the documentation demands, loses nothing: two such states at the same place of the array with the same successor are the same. -/
theorem mars_back_partial (k : Nat) (hk : k ≤ 32) (A : BitVec 64) (hA : A.toNat ≤ 4294967294) (s t : Mars) (hs : s.x.length = 2 ^ k) (ht : t.x.length = 2 ^ k)
    (hc : s.c.toNat < A.toNat) (hc' : t.c.toNat < A.toNat) (hi : s.i = t.i) (h : Mars.next (2 ^ k) A s = Mars.next (2 ^ k) A t) : s = t := by
  have hp := Nat.two_pow_pos k
  have hlt : (s.i.toNat + 1) % 2 ^ k < 2 ^ k := Nat.mod_lt _ hp
  obtain ⟨xi, gx⟩ : ∃ xi, s.x[(s.i.toNat + 1) % 2 ^ k]? = some xi := ⟨_, List.getElem?_eq_getElem (by omega)⟩
  obtain ⟨yi, gx'⟩ : ∃ yi, t.x[(t.i.toNat + 1) % 2 ^ k]? = some yi := ⟨_, List.getElem?_eq_getElem (by rw [← hi]; omega)⟩
  obtain ⟨s1, o, e, _, hx, ho, hc1⟩ := next_ok hk hA hs (Nat.le_of_lt hc) gx
  obtain ⟨t1, o', e', _, hx', ho', hc1'⟩ := next_ok hk hA ht (Nat.le_of_lt hc') gx'
  rw [e, e'] at h
  have h1 : s1 = t1 := congrArg (·.1) (Res.ok.inj h)
  have h2 : o = o' := congrArg (·.2) (Res.ok.inj h)
  subst h1
  subst h2
  obtain ⟨a, b⟩ := marsStep_back (X := xi.toNat) (X' := yi.toNat) hA (by have := xi.isLt; omega) (by have := yi.isLt; omega) hc hc' (Prod.ext (by rw [← ho, ← ho']) (by rw [← hc1, ← hc1']))
  have hcc : s.c = t.c := BitVec.eq_of_toNat_eq b
  have hxy : xi = yi := BitVec.eq_of_toNat_eq a
  subst hxy
  rw [← hi] at gx' hx'
  have hxx : s.x = t.x := by
    apply List.ext_getElem?
    intro j
    by_cases hj : (s.i.toNat + 1) % 2 ^ k = j
    · subst hj
      rw [gx, gx']
    · have e3 : (s.x.set ((s.i.toNat + 1) % 2 ^ k) o)[j]? = (t.x.set ((s.i.toNat + 1) % 2 ^ k) o)[j]? := by rw [← hx, ← hx']
      rw [List.getElem?_set, if_neg hj, List.getElem?_set, if_neg hj] at e3
      exact e3
  cases s
  cases t
  simp only at hcc hxx hi
  rw [hcc, hxx, hi]

/-- C235 without that: seeding allows a word `2^32 - 1`; then the carry becomes `A`, and the next state is also the next one of another state, with the carry 0. So sequences of two states run together. -/
theorem mars_merge_false : ∃ s0 s t : Mars, ∃ o : W, s0.x.length = 8 ∧ s0.c.toNat < 716514398 ∧ Mars.next 8 716514398#64 s0 = .ok (s, o) ∧ s.c.toNat = 716514398 ∧ t.c.toNat < 716514398 ∧ s ≠ t ∧
    Mars.next 8 716514398#64 s = Mars.next 8 716514398#64 t := by
  refine ⟨⟨[0, 0xFFFFFFFF, 5, 0, 0, 0, 0, 0], 1, 0⟩, ⟨[0, 0xFFFFFFFD, 5, 0, 0, 0, 0, 0], 716514398, 1⟩, ⟨[0, 0xFFFFFFFD, 6, 0, 0, 0, 0, 0], 0, 1⟩, 0xFFFFFFFD, ?_⟩
  decide

/-! ## The hypotheses can be met -/

example : (⟨1, 2, 3, 4⟩ : Micro).out (0 + 0) = (⟨1, 7, 9, 4⟩ : Micro).out 0 ∧ (⟨1, 2, 3, 4⟩ : Micro).out (0 + 0 + 1) = (⟨1, 7, 9, 4⟩ : Micro).out (0 + 1) := by decide

example : (⟨0, 2, 3, 0⟩ : Micro).out 0 = 0 ∧ (⟨0, 2, 3, 0⟩ : Micro).out 1 = 0 ∧ (⟨0, 0, 0, 1⟩ : Micro).out 0 ≠ 0 := by decide

example : ∃ s : Mars, s.x.length = 2 ^ 3 ∧ s.c.toNat < (716514398#64).toNat := ⟨⟨[1, 2, 3, 4, 5, 6, 7, 8], 9, 0⟩, by decide, by decide⟩

end Verif.Rng
