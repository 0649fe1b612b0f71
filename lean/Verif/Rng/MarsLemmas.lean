import Verif.Rng.MTLemmas

namespace Verif.Rng

open Spec (CMWC)

/-- The arithmetic of one step, in natural numbers: new word and new carry. -/
def marsStep (A X C : Nat) : Nat × Nat :=
  let t := A * X + C
  let lo := t % 4294967296 + t / 4294967296
  if lo < 4294967296 then ((8589934590 - lo) % 4294967296, t / 4294967296)
  else (4294967294 - (lo - 4294967295), t / 4294967296 + 1)

theorem step_bounds {A X C : Nat} (hA : A ≤ 4294967294) (hX : X ≤ 4294967295) (hC : C ≤ A) :
    A * X + C ≤ A * 4294967296 := by
  have : A * X ≤ A * 4294967295 := Nat.mul_le_mul_left _ hX
  omega

theorem marsStep_facts {A X C : Nat} (hA : A ≤ 4294967294) (hX : X ≤ 4294967295) (hC : C ≤ A) :
    ∃ Y, Y ≤ 4294967295 ∧ A * X + C = (marsStep A X C).2 * 4294967295 + Y ∧
      (marsStep A X C).1 = (8589934590 - Y) % 4294967296 ∧ (marsStep A X C).2 ≤ A ∧
      (Y = 4294967295 ↔ ((A * X + C) % 4294967295 = 0 ∧ A * X + C ≠ 0)) := by
  have hb := step_bounds hA hX hC
  have hb' : A * X + C ≤ A * 4294967295 + A := by
    have : A * X ≤ A * 4294967295 := Nat.mul_le_mul_left _ hX
    omega
  unfold marsStep
  generalize A * X + C = t at *
  dsimp only
  split
  · refine ⟨t % 4294967296 + t / 4294967296, by omega, by omega, rfl, by omega, by omega⟩
  · refine ⟨t % 4294967296 + t / 4294967296 - 4294967295, by omega, by dsimp only; omega, by dsimp only; omega, by dsimp only; omega, by omega⟩

theorem marsStep_cmwc {A X C : Nat} (hA : A ≤ 4294967294) (hX : X ≤ 4294967295) (hC : C ≤ A) :
    CMWC A X C (marsStep A X C).1 (marsStep A X C).2 ↔ ((A * X + C) % 4294967295 ≠ 0 ∨ A * X + C = 0) := by
  obtain ⟨Y, h1, h2, h3, h4, h5⟩ := marsStep_facts hA hX hC
  unfold CMWC
  rw [h3]
  generalize (marsStep A X C).2 = c' at *
  generalize A * X + C = t at *
  constructor
  · rintro ⟨ha, hb⟩
    omega
  · intro h
    have : Y ≠ 4294967295 := fun hy => by
      have := h5.1 hy
      omega
    constructor <;> omega

theorem and_mask (i : W) (k : Nat) (hk : k ≤ 32) : ((i + 1#32) &&& BitVec.ofNat 32 (2 ^ k - 1)).toNat = (i.toNat + 1) % 2 ^ k := by
  have hp : 2 ^ k ≤ 2 ^ 32 := Nat.pow_le_pow_right (by omega) hk
  have hp0 : 0 < 2 ^ k := Nat.two_pow_pos k
  rw [BitVec.toNat_and, BitVec.toNat_ofNat, Nat.mod_eq_of_lt (a := 2 ^ k - 1) (by omega), Nat.and_two_pow_sub_one_eq_mod,
    BitVec.toNat_add]
  rw [Nat.mod_mod_of_dvd _ (Nat.pow_dvd_pow 2 hk)]
  rfl

theorem mars_arith (A : BitVec 64) (hA : A.toNat ≤ 4294967294) (xi c : W) (hc : c.toNat ≤ A.toNat) :
    let temp : BitVec 64 := A * xi.setWidth 64 + c.setWidth 64
    let c1 : W := (temp >>> 32).setWidth 32
    let axc : W := (temp + c1.setWidth 64).setWidth 32
    let p : W × W := if axc < c1 then (axc + 1#32, c1 + 1#32) else (axc, c1)
    ((0xffffffff#32 - 1#32) - p.1).toNat = (marsStep A.toNat xi.toNat c.toNat).1 ∧
      p.2.toNat = (marsStep A.toNat xi.toNat c.toNat).2 := by
  intro temp c1 axc p
  have hb := step_bounds (X := xi.toNat) hA (by have := xi.isLt; omega) hc
  have hb2 : A.toNat * 4294967296 ≤ 4294967294 * 4294967296 := Nat.mul_le_mul_right _ hA
  have ht : temp.toNat = A.toNat * xi.toNat + c.toNat := by
    show (A * xi.setWidth 64 + c.setWidth 64).toNat = _
    rw [BitVec.toNat_add, BitVec.toNat_mul, BitVec.toNat_setWidth_of_le (by omega), BitVec.toNat_setWidth_of_le (by omega)]
    simp only [Nat.reducePow]
    generalize A.toNat * xi.toNat = m at *
    omega
  have hc1 : c1.toNat = temp.toNat / 4294967296 := by
    show ((temp >>> 32).setWidth 32).toNat = _
    rw [BitVec.toNat_setWidth, BitVec.toNat_ushiftRight, Nat.shiftRight_eq_div_pow]
    simp only [Nat.reducePow]
    generalize A.toNat * xi.toNat = m at *
    omega
  have hax : axc.toNat = (temp.toNat % 4294967296 + temp.toNat / 4294967296) % 4294967296 := by
    show ((temp + c1.setWidth 64).setWidth 32).toNat = _
    rw [BitVec.toNat_setWidth, BitVec.toNat_add, BitVec.toNat_setWidth_of_le (by omega), hc1]
    simp only [Nat.reducePow]
    generalize A.toNat * xi.toNat = m at *
    omega
  unfold marsStep
  rw [← ht]
  have htb : temp.toNat / 4294967296 ≤ 4294967294 := by rw [ht]; omega
  generalize temp.toNat = t at *
  clear_value temp
  have hlt : (axc < c1) ↔ ¬ (t % 4294967296 + t / 4294967296 < 4294967296) := by
    rw [BitVec.lt_def, hax, hc1]; omega
  show ((0xffffffff#32 - 1#32) - (if axc < c1 then (axc + 1#32, c1 + 1#32) else (axc, c1)).1).toNat = _ ∧
    (if axc < c1 then (axc + 1#32, c1 + 1#32) else (axc, c1)).2.toNat = _
  dsimp only
  by_cases h : t % 4294967296 + t / 4294967296 < 4294967296
  · rw [if_neg (fun hh => (hlt.1 hh) h), if_pos h]
    dsimp only
    refine ⟨?_, hc1⟩
    rw [BitVec.toNat_sub, hax]
    simp only [BitVec.reduceSub, BitVec.reduceToNat, Nat.reducePow]
    omega
  · rw [if_pos (hlt.2 h), if_neg h]
    dsimp only
    refine ⟨?_, ?_⟩
    · rw [BitVec.toNat_sub, BitVec.toNat_add, hax]
      simp only [BitVec.reduceSub, BitVec.reduceToNat, Nat.reducePow]
      omega
    · rw [BitVec.toNat_add, hc1]
      simp only [BitVec.reduceToNat, Nat.reducePow]
      omega

theorem next_ok {k : Nat} (hk : k ≤ 32) {A : BitVec 64} (hA : A.toNat ≤ 4294967294) {s : Mars}
    (hl : s.x.length = 2 ^ k) (hc : s.c.toNat ≤ A.toNat) {xi : W} (hx : s.x[(s.i.toNat + 1) % 2 ^ k]? = some xi) :
    ∃ s' o, Mars.next (2 ^ k) A s = .ok (s', o) ∧ s'.i.toNat = (s.i.toNat + 1) % 2 ^ k ∧
      s'.x = s.x.set ((s.i.toNat + 1) % 2 ^ k) o ∧ o.toNat = (marsStep A.toNat xi.toNat s.c.toNat).1 ∧
      s'.c.toNat = (marsStep A.toNat xi.toNat s.c.toNat).2 := by
  have hi := and_mask s.i k hk
  have hlt : (s.i.toNat + 1) % 2 ^ k < s.x.length := by rw [hl]; exact Nat.mod_lt _ (Nat.two_pow_pos k)
  have har := mars_arith A hA xi s.c hc
  unfold Mars.next
  simp only [hi]
  rw [rd_ok hx, Res.bind_ok]
  dsimp only at har ⊢
  rw [wr_ok hlt, Res.bind_ok]
  exact ⟨_, _, rfl, hi, rfl, har.1, har.2⟩

/-! ## The whole sequence -/

/-- The `n`-th word of the sequence (the initial array in the order it is visited, then the outputs) and the carry
before the `n`-th step. -/
def zc (size A : Nat) (z0 : Nat → Nat) (c0 : Nat) (n : Nat) : Nat × Nat :=
  (if h : n < size ∨ size = 0 then z0 n
    else (marsStep A (zc size A z0 c0 (n - size)).1 (zc size A z0 c0 (n - size)).2).1,
   if h : n = 0 then c0 else (marsStep A (zc size A z0 c0 (n - 1)).1 (zc size A z0 c0 (n - 1)).2).2)
termination_by n
decreasing_by all_goals omega

theorem zc_word {size A : Nat} {z0 : Nat → Nat} {c0 : Nat} (hs : 0 < size) (n : Nat) :
    (zc size A z0 c0 (n + size)).1 = (marsStep A (zc size A z0 c0 n).1 (zc size A z0 c0 n).2).1 := by
  conv => lhs; unfold zc
  dsimp only
  rw [dif_neg (by omega), Nat.add_sub_cancel]

theorem zc_init {size A : Nat} {z0 : Nat → Nat} {c0 : Nat} {n : Nat} (hn : n < size) :
    (zc size A z0 c0 n).1 = z0 n := by
  unfold zc
  dsimp only
  rw [dif_pos (Or.inl hn)]

theorem zc_carry {size A : Nat} {z0 : Nat → Nat} {c0 : Nat} (n : Nat) :
    (zc size A z0 c0 (n + 1)).2 = (marsStep A (zc size A z0 c0 n).1 (zc size A z0 c0 n).2).2 := by
  conv => lhs; unfold zc
  dsimp only
  rw [dif_neg (by omega), Nat.add_sub_cancel]

theorem zc_carry0 {size A : Nat} {z0 : Nat → Nat} {c0 : Nat} : (zc size A z0 c0 0).2 = c0 := by
  unfold zc
  simp

/-- `n` successive calls. -/
def Mars.draws (size : Nat) (A : BitVec 64) : Nat → Mars → Res (Mars × List W)
  | 0, s => .ok (s, [])
  | n + 1, s => do
    let (s, x) ← s.next size A
    let (s, xs) ← Mars.draws size A n s
    pure (s, x :: xs)

/-- The state before step `n`: the array holds words `n .. n + size - 1`, the next to be read first. -/
def MAt (k : Nat) (A : Nat) (Z C : Nat → Nat) (n : Nat) (s : Mars) : Prop :=
  s.x.length = 2 ^ k ∧ s.c.toNat = C n ∧ C n ≤ A ∧
    ∀ j, j < 2 ^ k → (s.x[(s.i.toNat + 1 + j) % 2 ^ k]?).map BitVec.toNat = some (Z (n + j))

theorem next_at {k : Nat} (hk : k ≤ 32) {A : BitVec 64} (hA : A.toNat ≤ 4294967294) {Z C : Nat → Nat}
    (hZ : ∀ n, Z (n + 2 ^ k) = (marsStep A.toNat (Z n) (C n)).1) (hC : ∀ n, C (n + 1) = (marsStep A.toNat (Z n) (C n)).2)
    {n : Nat} {s : Mars} (h : MAt k A.toNat Z C n s) :
    ∃ s' o, Mars.next (2 ^ k) A s = .ok (s', o) ∧ o.toNat = Z (n + 2 ^ k) ∧ MAt k A.toNat Z C (n + 1) s' := by
  obtain ⟨hl, hc, hle, hw⟩ := h
  have hp := Nat.two_pow_pos k
  have h0 := hw 0 hp
  rw [Nat.add_zero, Nat.add_zero] at h0
  cases hx : s.x[(s.i.toNat + 1) % 2 ^ k]? with
  | none => rw [hx] at h0; simp at h0
  | some xi =>
    rw [hx] at h0
    have hz : xi.toNat = Z n := by simpa using h0
    obtain ⟨s', o, e, hi, hxs, ho, hc'⟩ := next_ok hk hA hl (by rw [hc]; exact hle) hx
    rw [hz, hc] at ho hc'
    rw [← hZ] at ho
    rw [← hC] at hc'
    obtain ⟨Y, _, _, _, h4, _⟩ := marsStep_facts (X := Z n) hA (by rw [← hz]; have := xi.isLt; omega) hle
    refine ⟨s', o, e, ho, by rw [hxs, List.length_set, hl], hc', by rw [hC]; exact h4, ?_⟩
    intro j hj
    rw [hxs, hi, List.getElem?_set]
    have hmodlt := Nat.mod_lt (s.i.toNat + 1) hp
    by_cases hj' : j = 2 ^ k - 1
    · rw [if_pos, if_pos (by rw [hl]; exact hmodlt)]
      · show some o.toNat = _
        rw [ho]
        congr 2
        omega
      · rw [hj']
        have : (s.i.toNat + 1) % 2 ^ k + 1 + (2 ^ k - 1) = (s.i.toNat + 1) % 2 ^ k + 2 ^ k := by omega
        rw [this, Nat.add_mod_right, Nat.mod_mod]
    · have e1 : ((s.i.toNat + 1) % 2 ^ k + 1 + j) % 2 ^ k = (s.i.toNat + 1 + (j + 1)) % 2 ^ k := by
        rw [Nat.add_assoc, Nat.mod_add_mod, Nat.add_comm 1 j]
      rw [if_neg, e1, hw (j + 1) (by omega)]
      · congr 2; omega
      · intro heq
        generalize 2 ^ k = m at *
        generalize s.i.toNat + 1 = a at *
        have hlt := Nat.mod_lt a hp
        generalize a % m = b at hlt heq
        by_cases hh : b + 1 + j < m
        · rw [Nat.mod_eq_of_lt hh] at heq; omega
        · rw [Nat.mod_eq_sub_mod (a := b + 1 + j) (by omega), Nat.mod_eq_of_lt (a := b + 1 + j - m) (by omega)] at heq
          omega

theorem mdraws_at {k : Nat} (hk : k ≤ 32) {A : BitVec 64} (hA : A.toNat ≤ 4294967294) {Z C : Nat → Nat}
    (hZ : ∀ n, Z (n + 2 ^ k) = (marsStep A.toNat (Z n) (C n)).1) (hC : ∀ n, C (n + 1) = (marsStep A.toNat (Z n) (C n)).2) :
    ∀ (m n : Nat) (s : Mars), MAt k A.toNat Z C n s →
    ∃ s' os, Mars.draws (2 ^ k) A m s = .ok (s', os) ∧ os.map BitVec.toNat = (List.range' n m).map (fun i => Z (i + 2 ^ k)) ∧
      MAt k A.toNat Z C (n + m) s'
  | 0, n, s, h => ⟨s, [], rfl, rfl, h⟩
  | m + 1, n, s, h => by
    obtain ⟨s1, o, e1, ho, h1⟩ := next_at hk hA hZ hC h
    obtain ⟨s2, os, e2, hos, h2⟩ := mdraws_at hk hA hZ hC m (n + 1) s1 h1
    refine ⟨s2, o :: os, ?_, ?_, by rwa [show n + (m + 1) = n + 1 + m by omega]⟩
    · unfold Mars.draws
      rw [e1, Res.bind_ok]
      dsimp only
      rw [e2, Res.bind_ok]; rfl
    · rw [List.range'_succ, List.map_cons, List.map_cons, hos, ho]

theorem at_start {k : Nat} {A : Nat} {s : Mars} (hl : s.x.length = 2 ^ k) (hc : s.c.toNat ≤ A) :
    let z0 := fun j => (s.x[(s.i.toNat + 1 + j) % 2 ^ k]?.getD 0).toNat
    MAt k A (fun n => (zc (2 ^ k) A z0 s.c.toNat n).1) (fun n => (zc (2 ^ k) A z0 s.c.toNat n).2) 0 s := by
  intro z0
  refine ⟨hl, zc_carry0.symm, ?_, ?_⟩
  · show (zc (2 ^ k) A z0 s.c.toNat 0).2 ≤ A
    rw [zc_carry0]; exact hc
  · intro j hj
    dsimp only
    rw [Nat.zero_add, zc_init hj]
    have := Nat.mod_lt (s.i.toNat + 1 + j) (Nat.two_pow_pos k)
    show _ = some (s.x[(s.i.toNat + 1 + j) % 2 ^ k]?.getD 0).toNat
    rw [List.getElem?_eq_getElem (by rw [hl]; exact this)]
    rfl

theorem fill_facts : ∀ (n : Nat) (l : List W) (r : Templ Micro), ∃ l' r', Mars.fill n l r = .ok (l', r') ∧ l'.length = l.length + n
  | 0, l, r => ⟨l, r, rfl, by simp⟩
  | n + 1, l, r => by
    obtain ⟨l', r', e, h⟩ := fill_facts n (l ++ [r.inner.next.2]) { r with inner := r.inner.next.1 }
    exact ⟨l', r', e, by rw [h]; simp; omega⟩

/-! ## `MicroRandInner` -/

/-- `n` successive calls. -/
def Micro.draws : Nat → Micro → List W
  | 0, _ => []
  | n + 1, s => s.next.2 :: Micro.draws n s.next.1

/-- The state after `n` calls. -/
def Micro.after : Nat → Micro → Micro
  | 0, s => s
  | n + 1, s => Micro.after n s.next.1

theorem micro_after_succ : ∀ (n : Nat) (s : Micro), Micro.after (n + 1) s = (Micro.after n s).next.1
  | 0, _ => rfl
  | n + 1, s => micro_after_succ n s.next.1

/-- The `n`-th output. -/
def Micro.out (s : Micro) (n : Nat) : W := (Micro.after n s).next.2

theorem micro_draws_eq : ∀ (n : Nat) (s : Micro), Micro.draws n s = (List.range n).map s.out
  | 0, _ => rfl
  | n + 1, s => by
    show s.next.2 :: Micro.draws n s.next.1 = _
    rw [List.range_succ_eq_map, List.map_cons, micro_draws_eq n s.next.1, List.map_map]
    rfl

theorem micro_two (s : Micro) (n : Nat) : (Micro.after (n + 1) s).w = s.out n := by
  rw [micro_after_succ]; rfl

theorem micro_x (s : Micro) (n : Nat) : (Micro.after (n + 1) s).x = (Micro.after n s).w := by
  rw [micro_after_succ]; rfl

theorem micro_xw {s s' : Micro} (hx : s.x = s'.x) (hw : s.w = s'.w) : ∀ n, (Micro.after n s).x = (Micro.after n s').x ∧
    (Micro.after n s).w = (Micro.after n s').w := by
  intro n
  induction n with
  | zero => exact ⟨hx, hw⟩
  | succ n ih =>
    rw [micro_after_succ, micro_after_succ]
    refine ⟨?_, ?_⟩
    · show (Micro.after n s).w = (Micro.after n s').w
      exact ih.2
    · show (_ ^^^ _) = (_ ^^^ _)
      rw [ih.1, ih.2]

end Verif.Rng
