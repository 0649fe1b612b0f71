import Verif.Rng.MTLemmas

namespace Verif.Rng

open Spec (MTRecurrence SeededFrom StartsWith Tempered)

/-- `L` computes each bit from bits of smaller rank. -/
def Tri (ρ : Nat → Nat) (L : W → W) : Prop :=
  ∀ (x y : W) (i : Nat), i < 32 → (∀ j, j < 32 → ρ j < ρ i → x.getLsbD j = y.getLsbD j) →
    (L x).getLsbD i = (L y).getLsbD i

theorem tri_inj {ρ : Nat → Nat} {L : W → W} (h : Tri ρ L) {x y : W} (he : x ^^^ L x = y ^^^ L y) : x = y := by
  have key : ∀ n i, i < 32 → ρ i = n → x.getLsbD i = y.getLsbD i := by
    intro n
    induction n using Nat.strongRecOn with
    | _ n ih =>
      intro i hi hn
      have hb := congrArg (fun v => v.getLsbD i) he
      simp only [BitVec.getLsbD_xor] at hb
      rw [h x y i hi (fun j hj hr => ih (ρ j) (by omega) j hj rfl)] at hb
      revert hb
      cases x.getLsbD i <;> cases y.getLsbD i <;> cases (L y).getLsbD i <;> decide
  exact BitVec.eq_of_getLsbD_eq (fun i hi => key _ i hi rfl)

def iter (L : W → W) (y : W) : Nat → W
  | 0 => 0
  | n + 1 => y ^^^ L (iter L y n)

theorem tri_surj {ρ : Nat → Nat} {L : W → W} (h : Tri ρ L) (hρ : ∀ i, i < 32 → ρ i < 32) (y : W) :
    ∃ x, x ^^^ L x = y := by
  have key : ∀ n i, i < 32 → ρ i < n → (iter L y (n + 1)).getLsbD i = (iter L y n).getLsbD i := by
    intro n
    induction n with
    | zero => intro i _ h; omega
    | succ n ih =>
      intro i hi hn
      show (y ^^^ L (iter L y (n + 1))).getLsbD i = (y ^^^ L (iter L y n)).getLsbD i
      rw [BitVec.getLsbD_xor, BitVec.getLsbD_xor, h _ _ i hi (fun j hj hr => ih j hj (by omega))]
  have hfix : iter L y 33 = iter L y 32 :=
    BitVec.eq_of_getLsbD_eq (fun i hi => key 32 i hi (hρ i hi))
  have hfix' : y ^^^ L (iter L y 32) = iter L y 32 := hfix
  refine ⟨iter L y 32, ?_⟩
  conv => lhs; lhs; rw [← hfix']
  rw [BitVec.xor_assoc, BitVec.xor_self, BitVec.xor_zero]

theorem tri_shr (k : Nat) (hk : 0 < k) : Tri (fun i => 31 - i) (fun x => x >>> k) := by
  intro x y i hi h
  simp only [BitVec.getLsbD_ushiftRight]
  by_cases hki : k + i < 32
  · exact h _ hki (by show 31 - (k + i) < 31 - i; omega)
  · rw [BitVec.getLsbD_of_ge _ _ (by omega), BitVec.getLsbD_of_ge _ _ (by omega)]

theorem tri_shl (k : Nat) (m : W) (hk : 0 < k) : Tri (fun i => i) (fun x => (x <<< k) &&& m) := by
  intro x y i hi h
  simp only [BitVec.getLsbD_and, BitVec.getLsbD_shiftLeft]
  by_cases hki : i < k
  · simp [hki]
  · rw [h (i - k) (by omega) (by show i - k < i; omega)]

theorem temper_inj {x y : W} (h : temper x = temper y) : x = y := by
  unfold temper at h
  dsimp only at h
  exact tri_inj (tri_shr 11 (by omega)) (tri_inj (tri_shl 7 _ (by omega)) (tri_inj (tri_shl 15 _ (by omega))
    (tri_inj (tri_shr 18 (by omega)) h)))

theorem temper_surj (z : W) : ∃ y, temper y = z := by
  obtain ⟨c, hc⟩ := tri_surj (tri_shr 18 (by omega)) (fun i _ => by omega) z
  obtain ⟨b, hb⟩ := tri_surj (tri_shl 15 0xefc60000#32 (by omega)) (fun i hi => hi) c
  obtain ⟨a, ha⟩ := tri_surj (tri_shl 7 0x9d2c5680#32 (by omega)) (fun i hi => hi) b
  obtain ⟨y, hy⟩ := tri_surj (tri_shr 11 (by omega)) (fun i _ => by omega) a
  refine ⟨y, ?_⟩
  unfold temper
  dsimp only
  rw [hy, ha, hb, hc]

theorem temper_tempered (y : W) : Tempered y (temper y) := ⟨_, _, _, rfl, rfl, rfl, rfl⟩

theorem tempered_eq {y z : W} (h : Tempered y z) : z = temper y := by
  obtain ⟨a, b, c, rfl, rfl, rfl, rfl⟩ := h
  rfl

theorem temper_zero {y : W} (h : temper y = 0) : y = 0 := temper_inj (h.trans (by decide))

/-! ## The state never becomes zero -/

/-- The 19937 bits of state from word `n` on are all zero. -/
def Zero (X : Nat → W) (n : Nat) : Prop :=
  (X n).getLsbD 31 = false ∧ ∀ i, i < 623 → X (n + 1 + i) = 0

theorem zero_back {X : Nat → W} (hX : MTRecurrence X) {n : Nat} (h : Zero X (n + 1)) : Zero X n := by
  obtain ⟨y, hy, he⟩ := hX n
  have h1 : X (n + 624) = 0 := by
    have := h.2 622 (by omega)
    rwa [show n + 1 + 1 + 622 = n + 624 by omega] at this
  have h2 : X (n + 397) = 0 := by
    have := h.2 395 (by omega)
    rwa [show n + 1 + 1 + 395 = n + 397 by omega] at this
  rw [h1, h2] at he
  have hy0 : y.getLsbD 0 = false := by
    cases h0 : y.getLsbD 0 with
    | false => rfl
    | true =>
      rw [h0, if_pos rfl] at he
      have := congrArg (fun v => v.getLsbD 31) he
      simp [BitVec.getLsbD_xor, BitVec.getLsbD_ushiftRight] at this
  rw [hy0] at he
  have hb : ∀ b, y.getLsbD (b + 1) = false := by
    intro b
    have := congrArg (fun v => v.getLsbD b) he
    simp only [BitVec.getLsbD_xor, BitVec.getLsbD_ushiftRight, Bool.false_eq_true, if_false] at this
    rw [Nat.add_comm]
    simpa using this.symm
  have hx1 : X (n + 1) = 0 := by
    apply BitVec.eq_of_getLsbD_eq
    intro i hi
    by_cases h31 : i = 31
    · subst h31; rw [h.1]; rfl
    · have := hy i
      rw [if_neg h31] at this
      rw [← this]
      cases i with
      | zero => rw [hy0]; rfl
      | succ b => rw [hb b]; simp
  refine ⟨?_, ?_⟩
  · have := hy 31
    rw [if_pos rfl] at this
    rw [← this]
    exact hb 30
  · intro i hi
    cases i with
    | zero => exact hx1
    | succ i =>
      have := h.2 i (by omega)
      rwa [show n + 1 + 1 + i = n + 1 + (i + 1) by omega] at this

theorem zero_start {X : Nat → W} (hX : MTRecurrence X) : ∀ n, Zero X n → Zero X 0
  | 0, h => h
  | n + 1, h => zero_start hX n (zero_back hX h)

theorem seeded_not_zero {X : Nat → W} {seed : W} (h : SeededFrom seed X) : ¬ Zero X 0 := by
  intro hz
  have h1 := hz.2 0 (by omega)
  have h2 := hz.2 1 (by omega)
  have := h.2 1 (by omega)
  rw [show 0 + 1 + 0 = 1 by omega] at h1
  rw [show 0 + 1 + 1 = 2 by omega] at h2
  rw [show 1 + 1 = 2 by omega, h1, h2] at this
  exact absurd this (by decide)

theorem never_zero {X : Nat → W} (hX : MTRecurrence X) (h0 : ¬ Zero X 0) (n : Nat) :
    ∃ i, i < 624 ∧ temper (X (n + i)) ≠ 0 := by
  apply Classical.byContradiction
  intro hn
  have hall : ∀ i, i < 624 → X (n + i) = 0 := by
    intro i hi
    apply temper_zero
    apply Classical.byContradiction
    intro hne
    exact hn ⟨i, hi, hne⟩
  refine h0 (zero_start hX n ⟨?_, ?_⟩)
  · have := hall 0 (by omega)
    rw [Nat.add_zero] at this
    rw [this]; simp
  · intro i hi
    have := hall (1 + i) (by omega)
    rwa [show n + (1 + i) = n + 1 + i by omega] at this

/-! ## `initArray` -/

theorem wrap_ok {l : List W} {i : Nat} (hl : l.length = 624) (h1 : 1 ≤ i) (h2 : i ≤ 624) :
    ∃ l' i', wrap l i = .ok (l', i') ∧ l'.length = 624 ∧ 1 ≤ i' ∧ i' < 624 := by
  unfold wrap
  by_cases h : 624 ≤ i
  · rw [if_pos h, rd_ok (List.getElem?_eq_getElem (by omega : 623 < l.length)), Res.bind_ok, wr_ok (by omega), Res.bind_ok]
    exact ⟨_, 1, rfl, by simpa using hl, by omega, by omega⟩
  · rw [if_neg h]
    exact ⟨l, i, rfl, hl, h1, by omega⟩

theorem arrayLoop1_ok {seeds : List W} (hs : seeds ≠ []) : ∀ (k : Nat) (l : List W) (i j : Nat), l.length = 624 →
    1 ≤ i → i < 624 → j < seeds.length →
    ∃ l' i', arrayLoop1 seeds k l i j = .ok (l', i') ∧ l'.length = 624 ∧ 1 ≤ i' ∧ i' < 624
  | 0, l, i, _, hl, h1, h2, _ => ⟨l, i, rfl, hl, h1, h2⟩
  | k + 1, l, i, j, hl, h1, h2, hj => by
    unfold arrayLoop1
    rw [rd_ok (List.getElem?_eq_getElem (by omega : i < l.length)), Res.bind_ok,
      rd_ok (List.getElem?_eq_getElem (by omega : i - 1 < l.length)), Res.bind_ok,
      rd_ok (List.getElem?_eq_getElem hj), Res.bind_ok, wr_ok (by omega), Res.bind_ok]
    obtain ⟨l1, i1, e1, hl1, ha, hb⟩ := wrap_ok (l := l.set i _) (i := i + 1) (by simpa using hl) (by omega) (by omega)
    rw [e1, Res.bind_ok]
    dsimp only
    apply arrayLoop1_ok hs k l1 i1 _ hl1 ha hb
    have := List.length_pos_iff.2 hs
    split <;> omega

theorem arrayLoop2_ok : ∀ (k : Nat) (l : List W) (i : Nat), l.length = 624 → 1 ≤ i → i < 624 →
    ∃ l', arrayLoop2 k l i = .ok l' ∧ l'.length = 624
  | 0, l, i, hl, _, _ => ⟨l, rfl, hl⟩
  | k + 1, l, i, hl, h1, h2 => by
    unfold arrayLoop2
    rw [rd_ok (List.getElem?_eq_getElem (by omega : i < l.length)), Res.bind_ok,
      rd_ok (List.getElem?_eq_getElem (by omega : i - 1 < l.length)), Res.bind_ok, wr_ok (by omega), Res.bind_ok]
    obtain ⟨l1, i1, e1, hl1, ha, hb⟩ := wrap_ok (l := l.set i _) (i := i + 1) (by simpa using hl) (by omega) (by omega)
    rw [e1, Res.bind_ok]
    dsimp only
    exact arrayLoop2_ok k l1 i1 hl1 ha hb

theorem init_any (old : Mem) (ho : old.length = 624) (seed : W) :
    ∃ l, init old seed = .ok ⟨l, 624⟩ ∧ l.length = 624 ∧ ∀ old' : Mem, old'.length = 624 →
      init old' seed = .ok ⟨l, 624⟩ := by
  obtain ⟨X, hX, _⟩ := seeded_exists seed
  obtain ⟨l, e, w⟩ := init_starts hX ho
  refine ⟨l, e, w.1, ?_⟩
  intro old' ho'
  obtain ⟨l', e', w'⟩ := init_starts hX ho'
  rw [e']
  congr 2
  apply List.ext_getElem?
  intro i
  by_cases hi : i < 624
  · rw [w.2 i hi, w'.2 i hi]
  · rw [List.getElem?_eq_none (by have := w'.1; omega), List.getElem?_eq_none (by have := w.1; omega)]

theorem initArray_any (old : Mem) (ho : old.length = 624) (seeds : List W) (hs : seeds ≠ []) :
    ∃ l, initArray old seeds = .ok ⟨l, 624⟩ ∧ l.length = 624 ∧ l[0]? = some 0x80000000#32 ∧
      ∀ old' : Mem, old'.length = 624 → initArray old' seeds = .ok ⟨l, 624⟩ := by
  obtain ⟨l0, e0, hl0, hu⟩ := init_any old ho 19650218#32
  obtain ⟨l1, i1, e1, hl1, ha, hb⟩ := arrayLoop1_ok hs (if 624 > seeds.length then 624 else seeds.length) l0 1 0
    hl0 (by omega) (by omega) (List.length_pos_iff.2 hs)
  obtain ⟨l2, e2, hl2⟩ := arrayLoop2_ok 623 l1 i1 hl1 ha hb
  have hgen : ∀ old' : Mem, old'.length = 624 → initArray old' seeds = .ok ⟨l2.set 0 0x80000000#32, 624⟩ := by
    intro old' ho'
    unfold initArray
    rw [hu old' ho', Res.bind_ok]
    dsimp only
    rw [e1, Res.bind_ok]
    dsimp only
    rw [e2, Res.bind_ok, wr_ok (by omega), Res.bind_ok]; rfl
  refine ⟨l2.set 0 0x80000000#32, hgen old ho, by simpa using hl2, ?_, hgen⟩
  rw [List.getElem?_set, if_pos rfl, if_pos (by omega)]

end Verif.Rng
