import Verif.Rng.DoubleModel

/-! # Properties of the random doubles (C81) -/

namespace Verif.Rng

open Verif.Flt

theorem dnat (n : Nat) (h : n ≤ 2 ^ 53) : IsDouble (n : ℚ) := by
  have := isDouble_int (n : ℤ) (by rw [abs_of_nonneg (by omega)]; exact_mod_cast h)
  exact_mod_cast this

/-- One is alone among the doubles around it. -/
theorem double_near_one {d : ℚ} (h : IsDouble d) (h1 : |d - 1| < 1 / 2 ^ 53) : d = 1 := by
  obtain ⟨m, e, hm, rfl⟩ := h
  rw [abs_lt] at h1
  have hm' : (m : ℚ) ≤ 2 ^ 53 := by exact_mod_cast (abs_le.1 hm).2
  rcases le_or_gt (-53) e with he | he
  · obtain ⟨k, hk⟩ : ∃ k : ℕ, e = k - 53 := ⟨(e + 53).toNat, by omega⟩
    have e1 : (m : ℚ) * 2 ^ e = ((m * 2 ^ k : ℤ) : ℚ) / 2 ^ 53 := by
      rw [hk, zpow_sub₀ (by norm_num), zpow_natCast]
      push_cast
      rw [mul_div_assoc]
      norm_num
    rw [e1] at h1 ⊢
    generalize m * 2 ^ k = z at *
    have a1 : (2 ^ 53 - 1 : ℚ) < z := by
      have := h1.1
      rw [lt_sub_iff_add_lt, lt_div_iff₀ (by norm_num)] at this
      norm_num at this ⊢; linarith
    have a2 : (z : ℚ) < 2 ^ 53 + 1 := by
      have := h1.2
      rw [sub_lt_iff_lt_add, div_lt_iff₀ (by norm_num)] at this
      norm_num at this ⊢; linarith
    have b1 : (2 ^ 53 - 1 : ℤ) < z := by exact_mod_cast a1
    have b2 : z < 2 ^ 53 + 1 := by exact_mod_cast a2
    have : z = 2 ^ 53 := by omega
    rw [this]; norm_num
  · exfalso
    have h2 : (2 : ℚ) ^ e ≤ 2 ^ (-54 : ℤ) := zpow_le_zpow_right₀ (by norm_num) (by omega)
    have h3 : (0 : ℚ) < 2 ^ e := zpow_pos (by norm_num) _
    have h4 : (m : ℚ) * 2 ^ e ≤ 2 ^ 53 * 2 ^ (-54 : ℤ) := by nlinarith
    norm_num at h4
    norm_num at h1
    linarith

theorem open32_eq (F : Rounding) (x : W) : open32 F x = (x.toNat : ℚ) / 2 ^ 32 := by
  have hx := x.isLt
  have h1 : IsDouble (1 / 4294967296 : ℚ) := ⟨1, -32, by norm_num, by norm_num⟩
  unfold open32
  rw [F.exact (dnat _ (by omega)), F.exact h1]
  have h2 : IsDouble ((x.toNat : ℚ) * (1 / 4294967296)) := by
    have := isDouble_scale (dnat x.toNat (by omega)) (-32)
    rwa [show ((2 : ℚ) ^ (-32 : ℤ)) = 1 / 4294967296 by norm_num] at this
  rw [F.exact h2]; norm_num; ring

/-- **C81.** `randDoubleOpen()` is the drawn word over `2^32`, exactly: it lies in `[0, 1)`, never reaches one, and
the `2^32` words give `2^32` evenly spaced values. -/
theorem randDoubleOpen_range (F : Rounding) (x : W) :
    open32 F x = (x.toNat : ℚ) / 2 ^ 32 ∧ 0 ≤ open32 F x ∧ open32 F x < 1 := by
  refine ⟨open32_eq F x, ?_, ?_⟩ <;> rw [open32_eq]
  · positivity
  · rw [div_lt_one (by norm_num)]
    exact_mod_cast x.isLt

/-- The constant `1.0/4294967295.0`. -/
theorem closed_const (F : Rounding) :
    1 / 2 ^ 32 + 1 / 2 ^ 64 ≤ F.rnd (1 / 4294967295) ∧ F.rnd (1 / 4294967295) ≤ 1 / 4294967295 + 1 / 2 ^ 95 := by
  have hd : IsDouble (1 / 2 ^ 32 + 1 / 2 ^ 64) := ⟨2 ^ 32 + 1, -64, by norm_num, by norm_num⟩
  constructor
  · exact F.ge_of_double hd (by norm_num)
  · have := F.nearest (1 / 4294967295) _ hd
    have h2 : |(1 / 2 ^ 32 + 1 / 2 ^ 64 : ℚ) - 1 / 4294967295| ≤ 1 / 2 ^ 95 := by
      rw [abs_le]; constructor <;> norm_num
    have := (abs_le.1 (this.trans h2)).2
    linarith

theorem closed32_top (F : Rounding) : closed32 F (BitVec.allOnes 32) = 1 := by
  obtain ⟨h1, h2⟩ := closed_const F
  have ht : ((BitVec.allOnes 32).toNat : ℚ) = 4294967295 := by
    rw [BitVec.toNat_allOnes]; norm_num
  unfold closed32
  have hd : IsDouble (4294967295 : ℚ) := by simpa using dnat 4294967295 (by norm_num)
  rw [ht, F.exact hd]
  have hb : |4294967295 * F.rnd (1 / 4294967295) - 1| ≤ 1 / 2 ^ 60 := by
    rw [abs_le]
    constructor
    · have : (4294967295 : ℚ) * (1 / 2 ^ 32 + 1 / 2 ^ 64) - 1 ≥ -(1 / 2 ^ 60) := by norm_num
      linarith
    · have : (4294967295 : ℚ) * (1 / 4294967295 + 1 / 2 ^ 95) - 1 ≤ 1 / 2 ^ 60 := by norm_num
      linarith
  generalize 4294967295 * F.rnd (1 / 4294967295) = y at *
  have hn := F.nearest y 1 ⟨1, 0, by norm_num, by simp⟩
  rw [abs_sub_comm 1 y] at hn
  apply double_near_one (F.isDouble y)
  have h3 := abs_sub_le (F.rnd y) y 1
  have : (1 : ℚ) / 2 ^ 60 + 1 / 2 ^ 60 < 1 / 2 ^ 53 := by norm_num
  linarith

/-- **C81.** `randDoubleClosed()` lies in `[0, 1]`; the lowest word gives zero, the highest exactly one, and larger
words give larger values. -/
theorem randDoubleClosed_range (F : Rounding) :
    closed32 F 0 = 0 ∧ closed32 F (BitVec.allOnes 32) = 1 ∧ (∀ x : W, 0 ≤ closed32 F x ∧ closed32 F x ≤ 1) ∧
    ∀ x y : W, x.toNat < y.toNat → closed32 F x < closed32 F y := by
  obtain ⟨h1, h2⟩ := closed_const F
  have hz : F.rnd 0 = 0 := F.exact ⟨0, 0, by norm_num, by simp⟩
  have h0 : closed32 F 0 = 0 := by
    unfold closed32
    rw [show ((0 : W).toNat : ℚ) = 0 by simp, hz, zero_mul, hz]
  have hc0 : 0 ≤ F.rnd (1 / 4294967295) := by
    have : (0 : ℚ) ≤ 1 / 2 ^ 32 + 1 / 2 ^ 64 := by norm_num
    linarith
  have mono : ∀ x y : W, x.toNat ≤ y.toNat → closed32 F x ≤ closed32 F y := by
    intro x y hxy
    unfold closed32
    apply F.mono
    apply mul_le_mul_of_nonneg_right _ hc0
    apply F.mono
    exact_mod_cast hxy
  refine ⟨h0, closed32_top F, ?_, ?_⟩
  · intro x
    constructor
    · rw [← h0]; exact mono 0 x (by simp)
    · rw [← closed32_top F]; exact mono x _ (by rw [BitVec.toNat_allOnes]; have := x.isLt; omega)
  · intro x y hxy
    have hx := x.isLt
    have hy := y.isLt
    unfold closed32
    rw [F.exact (dnat x.toNat (by omega)), F.exact (dnat y.toNat (by omega))]
    have hq : (x.toNat : ℚ) + 1 ≤ y.toNat := by exact_mod_cast hxy
    have hy2 : (y.toNat : ℚ) ≤ 2 ^ 32 := by exact_mod_cast hy.le
    have hx0 : (0 : ℚ) ≤ x.toNat := by positivity
    generalize F.rnd (1 / 4294967295) = c at *
    have hc2 : c ≤ 1 / 2 ^ 31 := by
      have : (1 : ℚ) / 4294967295 + 1 / 2 ^ 95 ≤ 1 / 2 ^ 31 := by norm_num
      linarith
    have hc1 : 1 / 2 ^ 32 ≤ c := by
      have : (1 : ℚ) / 2 ^ 32 ≤ 1 / 2 ^ 32 + 1 / 2 ^ 64 := by norm_num
      linarith
    have bx : (x.toNat : ℚ) * c ≤ 2 := by
      have : (x.toNat : ℚ) * c ≤ 2 ^ 32 * (1 / 2 ^ 31) := mul_le_mul (by linarith) hc2 hc0 (by norm_num)
      norm_num at this ⊢; linarith
    have by' : (y.toNat : ℚ) * c ≤ 2 := by
      have : (y.toNat : ℚ) * c ≤ 2 ^ 32 * (1 / 2 ^ 31) := mul_le_mul (by linarith) hc2 hc0 (by norm_num)
      norm_num at this ⊢; linarith
    have ex := F.err ((x.toNat : ℚ) * c)
    have ey := F.err ((y.toNat : ℚ) * c)
    rw [abs_of_nonneg (mul_nonneg hx0 hc0)] at ex
    rw [abs_of_nonneg (mul_nonneg (by linarith) hc0)] at ey
    have hgap : (x.toNat : ℚ) * c + c ≤ y.toNat * c := by nlinarith
    have ex2 := (abs_le.1 ex).2
    have ey1 := (abs_le.1 ey).1
    have k1 : (x.toNat : ℚ) * c / 2 ^ 53 ≤ 2 / 2 ^ 53 := by
      rw [div_le_div_iff_of_pos_right (by norm_num)]; exact bx
    have k2 : (y.toNat : ℚ) * c / 2 ^ 53 ≤ 2 / 2 ^ 53 := by
      rw [div_le_div_iff_of_pos_right (by norm_num)]; exact by'
    have k3 : (2 : ℚ) / 2 ^ 53 + 2 / 2 ^ 53 < 1 / 2 ^ 32 := by norm_num
    linarith

theorem join53_eq (F : Rounding) (a b : W) (ha : a.toNat < 2 ^ 27) (hb : b.toNat < 2 ^ 26) :
    join53 F a b = ((a.toNat * 2 ^ 26 + b.toNat : Nat) : ℚ) := by
  unfold join53
  have h1 : F.rnd ((a.toNat : ℚ) * 67108864) = (a.toNat : ℚ) * 67108864 := by
    have := F.exact (dnat (a.toNat * 2 ^ 26) (by omega))
    push_cast at this
    exact this
  rw [F.exact (dnat a.toNat (by omega)), F.exact (dnat b.toNat (by omega)), h1]
  have h2 := F.exact (dnat (a.toNat * 2 ^ 26 + b.toNat) (by omega))
  push_cast at h2 ⊢
  exact h2

/-- What `randInt()>>5` and `randInt()>>6` leave. -/
def hi27 (x : W) : Nat := x.toNat / 32
def hi26 (x : W) : Nat := x.toNat / 64

theorem shifted (x y : W) : (x >>> 5).toNat = hi27 x ∧ (y >>> 6).toNat = hi26 y ∧ hi27 x < 2 ^ 27 ∧ hi26 y < 2 ^ 26 := by
  have hx := x.isLt
  have hy := y.isLt
  unfold hi27 hi26
  refine ⟨?_, ?_, by omega, by omega⟩
  · rw [BitVec.toNat_ushiftRight, Nat.shiftRight_eq_div_pow]
  · rw [BitVec.toNat_ushiftRight, Nat.shiftRight_eq_div_pow]

/-- **C81.** `randDoubleOpen53()` is exactly the 53 highest bits drawn (27 of one word, 26 of the next) over `2^53`: it
lies in `[0, 1)`, and different bits give different values. -/
theorem randDoubleOpen53_range (F : Rounding) (x y : W) :
    open53 F (x >>> 5) (y >>> 6) = ((hi27 x * 2 ^ 26 + hi26 y : Nat) : ℚ) / 2 ^ 53 ∧
    0 ≤ open53 F (x >>> 5) (y >>> 6) ∧ open53 F (x >>> 5) (y >>> 6) < 1 := by
  obtain ⟨h1, h2, h3, h4⟩ := shifted x y
  have hj := join53_eq F (x >>> 5) (y >>> 6) (by omega) (by omega)
  have he : open53 F (x >>> 5) (y >>> 6) = ((hi27 x * 2 ^ 26 + hi26 y : Nat) : ℚ) / 2 ^ 53 := by
    have hn : hi27 x * 2 ^ 26 + hi26 y ≤ 2 ^ 53 := by omega
    unfold open53
    rw [hj, h1, h2]
    generalize hi27 x * 2 ^ 26 + hi26 y = n at hn ⊢
    have hd := isDouble_scale (dnat n hn) (-53)
    rw [show ((2 : ℚ) ^ (-53 : ℤ)) = 1 / 9007199254740992 by norm_num, ← div_eq_mul_one_div] at hd
    rw [F.exact hd, show (2 : ℚ) ^ 53 = 9007199254740992 by norm_num]
  refine ⟨he, ?_, ?_⟩ <;> rw [he]
  · exact div_nonneg (Nat.cast_nonneg _) (by norm_num)
  · rw [div_lt_one (by norm_num)]
    have : hi27 x * 2 ^ 26 + hi26 y < 2 ^ 53 := by omega
    exact_mod_cast this

/-- **C81.** `randDoubleClosed53()` lies in `[0, 1]` and reaches both ends. -/
theorem randDoubleClosed53_range (F : Rounding) :
    (∀ x y : W, 0 ≤ closed53 F (x >>> 5) (y >>> 6) ∧ closed53 F (x >>> 5) (y >>> 6) ≤ 1) ∧
    (∀ x y : W, closed53 F (x >>> 5) (y >>> 6) = 0 ↔ hi27 x * 2 ^ 26 + hi26 y = 0) ∧
    closed53 F (BitVec.allOnes 32 >>> 5) (BitVec.allOnes 32 >>> 6) = 1 := by
  have he : ∀ x y : W, closed53 F (x >>> 5) (y >>> 6) = F.rnd (((hi27 x * 2 ^ 26 + hi26 y : Nat) : ℚ) / 9007199254740991) ∧
      hi27 x * 2 ^ 26 + hi26 y < 2 ^ 53 := by
    intro x y
    obtain ⟨h1, h2, h3, h4⟩ := shifted x y
    unfold closed53
    rw [join53_eq F (x >>> 5) (y >>> 6) (by omega) (by omega), h1, h2]
    exact ⟨rfl, by omega⟩
  have hd0 : IsDouble 0 := ⟨0, 0, by norm_num, by simp⟩
  have hd1 : IsDouble 1 := ⟨1, 0, by norm_num, by simp⟩
  refine ⟨?_, ?_, ?_⟩
  · intro x y
    obtain ⟨h1, h2⟩ := he x y
    rw [h1]
    generalize hi27 x * 2 ^ 26 + hi26 y = n at *
    refine ⟨F.ge_of_double hd0 (by positivity), F.le_of_double hd1 ?_⟩
    rw [div_le_one (by norm_num)]
    have : n ≤ 9007199254740991 := by omega
    exact_mod_cast this
  · intro x y
    obtain ⟨h1, h2⟩ := he x y
    rw [h1]
    generalize hi27 x * 2 ^ 26 + hi26 y = n at *
    constructor
    · intro h
      by_contra hn
      have hn1 : (1 : ℚ) ≤ n := by exact_mod_cast Nat.pos_of_ne_zero hn
      have hd : IsDouble (1 / 2 ^ 53) := ⟨1, -53, by norm_num, by norm_num⟩
      have : (1 : ℚ) / 2 ^ 53 ≤ n / 9007199254740991 := by
        rw [div_le_div_iff₀ (by norm_num) (by norm_num)]; linarith
      have := F.ge_of_double hd this
      rw [h] at this
      norm_num at this
    · intro h
      rw [h]; simp only [Nat.cast_zero, zero_div]; exact F.exact hd0
  · rw [(he _ _).1]
    have : hi27 (BitVec.allOnes 32) * 2 ^ 26 + hi26 (BitVec.allOnes 32) = 9007199254740991 := by decide
    rw [this]
    norm_num
    exact F.exact hd1

/-- **C81** for the functions of the generator: they draw one or two words and fail only if drawing fails. -/
theorem doubles_of_words {S : Type} (next : S → Res (S × W)) (F : Rounding) (t : Templ S) :
    (∀ t' v, t.doubleOpen next F = .ok (t', v) → 0 ≤ v ∧ v < 1) ∧
    (∀ t' v, t.doubleClosed next F = .ok (t', v) → 0 ≤ v ∧ v ≤ 1) ∧
    (∀ t' v, t.doubleOpen53 next F = .ok (t', v) → 0 ≤ v ∧ v < 1) ∧
    (∀ t' v, t.doubleClosed53 next F = .ok (t', v) → 0 ≤ v ∧ v ≤ 1) := by
  refine ⟨?_, ?_, ?_, ?_⟩ <;> intro t' v h
  · simp only [Templ.doubleOpen, Res.bind_eq_ok] at h
    obtain ⟨⟨t1, x⟩, _, h⟩ := h
    cases h
    exact (randDoubleOpen_range F x).2
  · simp only [Templ.doubleClosed, Res.bind_eq_ok] at h
    obtain ⟨⟨t1, x⟩, _, h⟩ := h
    cases h
    exact (randDoubleClosed_range F).2.2.1 x
  · simp only [Templ.doubleOpen53, Templ.pair, Res.bind_eq_ok] at h
    obtain ⟨⟨t1, a, b⟩, ⟨⟨t2, x⟩, _, ⟨t3, y⟩, _, h2⟩, h⟩ := h
    cases h2
    cases h
    exact (randDoubleOpen53_range F x y).2
  · simp only [Templ.doubleClosed53, Templ.pair, Res.bind_eq_ok] at h
    obtain ⟨⟨t1, a, b⟩, ⟨⟨t2, x⟩, _, ⟨t3, y⟩, _, h2⟩, h⟩ := h
    cases h2
    cases h
    exact (randDoubleClosed53_range F).1 x y

end Verif.Rng
