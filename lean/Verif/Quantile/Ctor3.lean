import Verif.Quantile.Ctor2

/-! # Particular sizes -/

namespace Verif.Quantile

open Verif

variable (R : Flt.Rounding)

/-- Binomials by multiplication. -/
def ch (n k : Nat) : Nat := n.descFactorial k / k.factorial

theorem ch_eq (n k : Nat) : n.choose k = ch n k := Nat.choose_eq_descFactorial_div_factorial n k

/-- `p * vx b h ≤ q`, in natural numbers. -/
def vxLe (p q b h : Nat) : Bool := decide (p * ((h - 2) * ch (b + h - 2) (h - 1) + ch (b + h - 3) (h - 2)) ≤ q + p * ch (b + h - 3) (h - 3))

def vxGe (p q b h : Nat) : Bool := decide (q + p * ch (b + h - 3) (h - 3) ≤ p * ((h - 2) * ch (b + h - 2) (h - 1) + ch (b + h - 3) (h - 2)))

theorem vx_le {p q b h : Nat} (hc : vxLe p q b h = true) : (p : Rat) * vx b h ≤ q := by
  unfold vxLe at hc
  rw [decide_eq_true_eq, ← ch_eq, ← ch_eq, ← ch_eq] at hc
  have : (p : Rat) * (((h - 2 : Nat) : Rat) * (b + h - 2).choose (h - 1) + (b + h - 3).choose (h - 2)) ≤ q + p * (b + h - 3).choose (h - 3) := by exact_mod_cast hc
  unfold vx
  linarith

theorem vx_ge {p q b h : Nat} (hc : vxGe p q b h = true) : (q : Rat) ≤ p * vx b h := by
  unfold vxGe at hc
  rw [decide_eq_true_eq, ← ch_eq, ← ch_eq, ← ch_eq] at hc
  have : (q : Rat) + p * (b + h - 3).choose (h - 3) ≤ (p : Rat) * (((h - 2 : Nat) : Rat) * (b + h - 2).choose (h - 1) + (b + h - 3).choose (h - 2)) := by exact_mod_cast hc
  unfold vx
  linarith

/-- Heights below the limit are reached. -/
theorem height_ge {bd : Rat} {b g : Nat} (hb : 2 ≤ b) (hb' : b ≤ 29) (hg : g ≤ 40) (h : ∀ h, 3 ≤ h → h ≤ g → vx b h * (1 + 1 / 10 ^ 8) ≤ bd) :
    g ≤ height R.rnd bd b 37 3 := by
  obtain ⟨i1, i2, i3, i4⟩ := height_spec R.rnd bd b 37 3 rfl (by omega)
  by_contra hlt
  have hlt : height R.rnd bd b 37 3 < g := by omega
  have h1 := i4 (by omega)
  have h2 := h (height R.rnd bd b 37 3 + 1) (by omega) (by omega)
  obtain ⟨p0, p1, _⟩ := near_paperV R b (height R.rnd bd b 37 3 + 1) hb hb' (by omega) (by omega)
  norm_num at *
  linarith

/-- Heights above it are not. -/
theorem height_le {bd : Rat} {b g : Nat} (hb : 2 ≤ b) (hb' : b ≤ 29) (hg : 2 ≤ g) (hg' : g < 39) (h : bd * (1 + 1 / 10 ^ 8) < vx b (g + 1)) :
    height R.rnd bd b 37 3 ≤ g := by
  obtain ⟨i1, i2, i3, i4⟩ := height_spec R.rnd bd b 37 3 rfl (by omega)
  by_contra hlt
  have h1 := i3 (g + 1) (by omega) (by omega) (by omega)
  obtain ⟨p0, _, p2⟩ := near_paperV R b (g + 1) hb hb' (by omega) (by omega)
  norm_num at *
  linarith

theorem room_mono {b H H' : Nat} (hb : 1 ≤ b) (h : H ≤ H') : (b + H).choose (H + 1) ≤ (b + H').choose (H' + 1) := by
  obtain ⟨m, rfl⟩ : ∃ m, b = m + 1 := ⟨b - 1, by omega⟩
  have := leaves_mono m (show H + 1 ≤ H' + 1 by omega)
  rw [leaves_choose, leaves_choose] at this
  rw [show m + 1 + H = m + (H + 1) by omega, show m + 1 + H' = m + (H' + 1) by omega]
  exact this

/-- A better choice than stopping at height 40 with `b` buffers: `b2` buffers and height `H2 + 2`. -/
theorem no_forty {ε bd : Rat} {N b b2 H2 M : Nat} (hb : 2 ≤ b) (hb' : b ≤ 29) (hb2 : 2 ≤ b2) (hb2' : b2 ≤ 29) (hH2 : H2 ≤ 38) (hε : 0 ≤ ε) (hε' : ε ≤ 2001 / 10000)
    (hN0 : 0 < N) (hN : N ≤ 10 ^ 13) (hbd : bd ≤ 2 * ε * N * (1 + 1 / 10 ^ 12)) (h40 : height R.rnd bd b 37 3 = 40)
    (hM : vxGe 1 M b 39 = true) (hv : ∀ h, h < H2 + 3 → 3 ≤ h → vxLe 10001 (10000 * M) b2 h = true)
    (hcmp : (b2 : Rat) ≤ (b / ch (b + 38) 39 - b2 * (1 + 1 / 10 ^ 12) / ch (b2 + H2) (H2 + 1)) * (2498 / 1000 * M)) (hM0 : 0 < M)
    (hmin : (b2 : Int) * ksize R.rnd bd N b2 < 1000000000 → (b : Int) * ksize R.rnd bd N b ≤ b2 * ksize R.rnd bd N b2)
    (hlt : (b : Int) * ksize R.rnd bd N b < 1000000000) : False := by
  obtain ⟨i1, i2, i3, i4⟩ := height_spec R.rnd bd b 37 3 rfl (by omega)
  rw [h40] at i3
  have hpv := i3 39 (by omega) (by omega) (by omega)
  have hvx := checked R hb hb' (h := 39) (by omega) (by omega) hε hbd hpv
  obtain ⟨p0, p1, p2⟩ := near_paperV R b 39 hb hb' (by omega) (by omega)
  have hM' := vx_ge hM
  have hNq : (0 : Rat) < N := by exact_mod_cast hN0
  have hMq : (0 : Rat) < M := by exact_mod_cast hM0
  -- how large `N` is
  have hNbig : 2498 / 1000 * (M : Rat) ≤ N := by
    have : 2 * ε * (N : Rat) * (1 + 1 / 10 ^ 9) ≤ 2 * (2001 / 10000) * N * (1 + 1 / 10 ^ 9) := by gcongr
    norm_num at *
    linarith
  -- the height with `b2` buffers
  have hge : H2 + 2 ≤ height R.rnd bd b2 37 3 := height_ge R hb2 hb2' (by omega) (by
    intro h h3 hle
    have a := vx_le (hv h (by omega) h3)
    push_cast at a hM'
    obtain ⟨q0, _⟩ := near_paperV R b2 h hb2 hb2' h3 (by omega)
    norm_num at *
    linarith)
  obtain ⟨H, e1, e2, e3⟩ := room_eq R bd b2
  have hroom : ch (b2 + H2) (H2 + 1) ≤ roomOf R bd b2 := by rw [e3, ← ch_eq]; exact room_mono (by omega) (by omega)
  obtain ⟨H', f1, f2, f3⟩ := room_eq R bd b
  have hH' : H' = 38 := by omega
  subst hH'
  rw [ch_eq] at f3
  obtain ⟨k1, k2, k3⟩ := ksize_ok R bd N b hb hb' hN0 hN
  obtain ⟨l1, l2, l3⟩ := ksize_ok R bd N b2 hb2 hb2' hN0 hN
  rw [f3] at k2
  have hC2 : (0 : Rat) < ch (b2 + H2) (H2 + 1) := by rw [← ch_eq]; exact_mod_cast Nat.choose_pos (by omega)
  have hCb : (0 : Rat) < ch (b + 38) 39 := by rw [← ch_eq]; exact_mod_cast Nat.choose_pos (by omega)
  have hroomq : (ch (b2 + H2) (H2 + 1) : Rat) ≤ roomOf R bd b2 := by exact_mod_cast hroom
  have k2q : (N : Rat) / ch (b + 38) 39 ≤ ksize R.rnd bd N b := by
    rw [div_le_iff₀ hCb]
    exact_mod_cast k2
  have l3q : (ksize R.rnd bd N b2 : Rat) < N / ch (b2 + H2) (H2 + 1) * (1 + 1 / 10 ^ 12) + 1 := by
    have : (N : Rat) / roomOf R bd b2 ≤ N / ch (b2 + H2) (H2 + 1) := div_le_div_of_nonneg_left (le_of_lt hNq) hC2 hroomq
    have := mul_le_mul_of_nonneg_right this (show (0 : Rat) ≤ 1 + 1 / 10 ^ 12 by norm_num)
    linarith
  generalize (ksize R.rnd bd N b2) = kk2 at *
  generalize (ksize R.rnd bd N b) = kk at *
  generalize (ch (b2 + H2) (H2 + 1) : Rat) = C2 at *
  generalize (ch (b + 38) 39 : Rat) = Cb at *
  have hb2q : (0 : Rat) < b2 := by exact_mod_cast (by omega : 0 < b2)
  have hbq : (0 : Rat) < b := by exact_mod_cast (by omega : 0 < b)
  have hα : 0 ≤ (b : Rat) / Cb - b2 * (1 + 1 / 10 ^ 12) / C2 := by
    by_contra hneg
    have : ((b : Rat) / Cb - b2 * (1 + 1 / 10 ^ 12) / C2) * (2498 / 1000 * M) ≤ 0 := mul_nonpos_of_nonpos_of_nonneg (le_of_lt (not_le.1 hneg)) (by positivity)
    linarith
  have hfin : (b2 : Rat) * kk2 < b * kk := by
    have s1 : (b2 : Rat) * kk2 < b2 * (N / C2 * (1 + 1 / 10 ^ 12) + 1) := mul_lt_mul_of_pos_left l3q hb2q
    have s2 : (b : Rat) * (N / Cb) ≤ b * kk := mul_le_mul_of_nonneg_left k2q (le_of_lt hbq)
    have s3 : ((b : Rat) / Cb - b2 * (1 + 1 / 10 ^ 12) / C2) * (2498 / 1000 * M) ≤ ((b : Rat) / Cb - b2 * (1 + 1 / 10 ^ 12) / C2) * N :=
      mul_le_mul_of_nonneg_left hNbig hα
    have s4 : ((b : Rat) / Cb - b2 * (1 + 1 / 10 ^ 12) / C2) * N = b * (N / Cb) - b2 * (N / C2 * (1 + 1 / 10 ^ 12)) := by ring
    linarith [mul_add (b2 : Rat) (N / C2 * (1 + 1 / 10 ^ 12)) 1]
  have hfin' : (b2 : Int) * kk2 < b * kk := by exact_mod_cast hfin
  have := hmin (by omega)
  omega

theorem ctor_covers {ε : Rat} {inN b k : Nat} (hε : 0 ≤ ε) (hN : inN ≤ 10 ^ 13) (hsmall : 2 * ε * (max 100 inN : Nat) ≤ 1500000000)
    (h : ctor R.rnd ε inN = .ok (b, k)) : Covers ε (max 100 inN) b k := by
  obtain ⟨hb, hb', hk, _, hε', bd, _, _, hbd0, hbd, hks, hlt, hmin⟩ := ctor_spec R hε hN h
  have hall := (ctor_covers_two R hε hN h).2 bd hbd hks
  refine hall ?_
  have hN0 : 0 < max 100 inN := by omega
  have hN1 : max 100 inN ≤ 10 ^ 13 := by omega
  clear hall h hks
  generalize max 100 inN = N at *
  obtain ⟨i1, i2, i3, i4⟩ := height_spec R.rnd bd b 37 3 rfl (by omega)
  by_contra hge
  have h40 : height R.rnd bd b 37 3 = 40 := by omega
  by_cases h8 : 8 ≤ b
  · rw [h40] at i3
    have hvx := checked R hb hb' (h := 39) (by omega) (by omega) hε hbd (i3 39 (by omega) (by omega) (by omega))
    have hg : ∀ b < 30, 8 ≤ b → vxGe 1 1530000000 b 39 = true := by decide +kernel
    have := vx_ge (hg b (by omega) h8)
    push_cast at this
    have : 2 * ε * (N : Rat) * (1 + 1 / 10 ^ 9) ≤ 1500000000 * (1 + 1 / 10 ^ 9) := mul_le_mul_of_nonneg_right hsmall (by norm_num)
    norm_num at *
    linarith
  · have key : ∀ (b2 H2 M : Nat), 2 ≤ b2 → b2 ≤ 29 → H2 ≤ 38 → vxGe 1 M b 39 = true → (∀ h, h < H2 + 3 → 3 ≤ h → vxLe 10001 (10000 * M) b2 h = true) →
        (b2 : Rat) ≤ (b / ch (b + 38) 39 - b2 * (1 + 1 / 10 ^ 12) / ch (b2 + H2) (H2 + 1)) * (2498 / 1000 * M) → 0 < M → False :=
      fun b2 H2 M g1 g2 g3 g4 g5 g6 g7 => no_forty R hb hb' g1 g2 g3 hε hε' hN0 hN1 hbd h40 g4 g5 g6 g7 (hmin b2 g1 g2) hlt
    clear hmin
    have hb7 : b = 2 ∨ b = 3 ∨ b = 4 ∨ b = 5 ∨ b = 6 ∨ b = 7 := by omega
    rcases hb7 with rfl | rfl | rfl | rfl | rfl | rfl
    · exact key 4 6 778 (by omega) (by omega) (by omega) (by decide +kernel) (by decide +kernel) (by decide +kernel) (by omega)
    · exact key 5 11 20462 (by omega) (by omega) (by omega) (by decide +kernel) (by decide +kernel) (by decide +kernel) (by omega)
    · exact key 7 12 312910 (by omega) (by omega) (by omega) (by decide +kernel) (by decide +kernel) (by decide +kernel) (by omega)
    · exact key 10 11 3493282 (by omega) (by omega) (by omega) (by decide +kernel) (by decide +kernel) (by decide +kernel) (by omega)
    · exact key 12 12 31221008 (by omega) (by omega) (by omega) (by decide +kernel) (by decide +kernel) (by decide +kernel) (by omega)
    · exact key 11 17 235057264 (by omega) (by omega) (by omega) (by decide +kernel) (by decide +kernel) (by decide +kernel) (by omega)

/-! ## Two calls -/

/-- The tree is not taller than `g`. -/
theorem room_le {bd : Rat} {b g q : Nat} (hb : 2 ≤ b) (hb' : b ≤ 29) (hbd : bd * (1 + 1 / 10 ^ 8) < q)
    (h : g = 40 ∨ (2 ≤ g ∧ g < 39 ∧ vxGe 1 q b (g + 1) = true)) : roomOf R bd b ≤ ch (b + g - 2) (g - 1) := by
  obtain ⟨i1, i2, i3, i4⟩ := height_spec R.rnd bd b 37 3 rfl (by omega)
  have hg : height R.rnd bd b 37 3 ≤ g := by
    rcases h with rfl | ⟨h1, h2, h3⟩
    · exact i2
    · refine height_le R hb hb' h1 h2 (lt_of_lt_of_le hbd ?_)
      have := vx_ge h3
      push_cast at this
      linarith
  obtain ⟨H, e1, e2, e3⟩ := room_eq R bd b
  rw [e3, ← ch_eq]
  have : 2 ≤ g := by omega
  have := room_mono (b := b) (H := H) (H' := g - 2) (by omega) (by omega)
  rw [show b + (g - 2) = b + g - 2 by omega, show g - 2 + 1 = g - 1 by omega] at this
  exact this

theorem near_bd (x : Rat) (N : Nat) (hx : 0 < x) (hN : 0 < N) :
    2 * x * N * (1 - 1 / 10 ^ 12) ≤ R.rnd (R.rnd (2 * R.rnd x) * N) ∧ R.rnd (R.rnd (2 * R.rnd x) * N) ≤ 2 * x * N * (1 + 1 / 10 ^ 12) := by
  have n := ((((Near.refl (show (0 : Rat) < 2 by norm_num)).mul ((Near.refl hx).rnd R)).rnd R).mul (Near.refl (show (0 : Rat) < N by exact_mod_cast hN))).rnd R
  have := n.bounds (by omega)
  exact ⟨this.2, this.1⟩

theorem ctor_5000 : ctor R.rnd (R.rnd (1 / 10)) 5000 = .ok (13, 11) := by
  have hN : (max 100 5000 : Nat) = 5000 := rfl
  obtain ⟨l, u⟩ := near_bd R (1 / 10) 5000 (by norm_num) (by norm_num)
  set bd := R.rnd (R.rnd (2 * R.rnd (1 / 10)) * (5000 : Nat)) with hbd
  have hlo : 999 ≤ bd := by norm_num at l ⊢; linarith
  have hhi : bd * (1 + 1 / 10 ^ 8) < (1001 : Nat) := by norm_num at u ⊢; linarith
  have hε : R.rnd (1 / 10) < R.rnd (2 / 10) := by
    have a := ((Near.refl (show (0 : Rat) < 1 / 10 by norm_num)).rnd R).bounds (by omega)
    have b := ((Near.refl (show (0 : Rat) < 2 / 10 by norm_num)).rnd R).bounds (by omega)
    norm_num at a b ⊢
    linarith [a.1, b.2]
  have hε0 : 0 ≤ R.rnd (1 / 10) := le_of_lt ((Near.refl (show (0 : Rat) < 1 / 10 by norm_num)).rnd R).xpos
  -- with 13 buffers
  have hr13 : roomOf R bd 13 = 455 := by
    refine Nat.le_antisymm ?_ ?_
    · exact room_le R (g := 4) (by omega) (by omega) hhi (Or.inr ⟨by omega, by omega, by decide +kernel⟩)
    · have hv : ∀ h < 5, 3 ≤ h → vxLe 1 987 13 h = true := by decide +kernel
      have hge : 4 ≤ height R.rnd bd 13 37 3 := height_ge R (by omega) (by omega) (by omega) (fun h h3 h4 => by
        have := vx_le (hv h (by omega) h3)
        push_cast at this
        norm_num at *
        linarith)
      obtain ⟨H, e1, e2, e3⟩ := room_eq R bd 13
      rw [e3]
      have := room_mono (b := 13) (H := 2) (H' := H) (by omega) (by omega)
      have h455 : (13 + 2).choose (2 + 1) = 455 := by decide +kernel
      omega
  have hk13 : ksize R.rnd bd (5000 : Nat) 13 = 11 := by
    obtain ⟨k1, k2, k3⟩ := ksize_ok R bd 5000 13 (by omega) (by omega) (by omega) (by norm_num)
    rw [hr13] at k2 k3
    generalize ksize R.rnd bd ((5000 : Nat) : Rat) 13 = kk at *
    have : (kk : Rat) < 12 := by
      push_cast at k3
      refine lt_trans k3 ?_
      norm_num
    have : kk < 12 := by exact_mod_cast this
    push_cast at k2
    omega
  obtain ⟨b, k, e⟩ := ctor_exists R (inN := 5000) hε (by omega) (by norm_num) (b' := 13) (by omega) (by omega) (by rw [hN, ← hbd, hk13]; norm_num)
  obtain ⟨hb, hb', hk, _, _, bd', hbd', hkk, _, _, _, _, hmin⟩ := ctor_spec R hε0 (by norm_num) e
  rw [hN, ← hbd] at hbd'
  subst hbd'
  rw [hN] at hmin hkk
  have hm := hmin 13 (by omega) (by omega) (by rw [hk13]; norm_num)
  rw [hk13] at hm
  have h13 : b = 13 := by
    by_contra hne
    have tab : ∀ b < 30, 2 ≤ b → b ≠ 13 → ∃ g ∈ [3, 4, 5, 6, 8, 14, 40], (g = 40 ∨ (2 ≤ g ∧ g < 39 ∧ vxGe 1 1001 b (g + 1) = true)) ∧
        143 / b * ch (b + g - 2) (g - 1) < 5000 := by decide +kernel
    obtain ⟨g, _, hg, hlt⟩ := tab b (by omega) hb hne
    have hr := room_le R hb hb' hhi hg
    obtain ⟨k1, k2, k3⟩ := ksize_ok R bd 5000 b hb hb' (by omega) (by norm_num)
    generalize ksize R.rnd bd ((5000 : Nat) : Rat) b = kk at *
    obtain ⟨m, rfl⟩ : ∃ m : Nat, kk = m := ⟨kk.toNat, by omega⟩
    have hm' : b * m ≤ 143 := by
      have : ((b : Int)) * m ≤ 143 := by push_cast at hm; linarith
      exact_mod_cast this
    have h1 : m ≤ 143 / b := (Nat.le_div_iff_mul_le (by omega)).2 (by rw [Nat.mul_comm]; exact hm')
    have h2 : 5000 ≤ m * roomOf R bd b := by exact_mod_cast k2
    have h3 : m * roomOf R bd b ≤ 143 / b * ch (b + g - 2) (g - 1) := Nat.mul_le_mul h1 hr
    omega
  subst h13
  rw [hk13] at hkk
  rw [e, hkk]
  rfl

theorem ctor_default : ∃ b k, ctor R.rnd (R.rnd (1 / 100)) 1000000000 = .ok (b, k) ∧ 2 ≤ b ∧ b ≤ k ∧ 10 ≤ k ∧ k < 2147483648 := by
  have hN : (max 100 1000000000 : Nat) = 1000000000 := rfl
  obtain ⟨l, u⟩ := near_bd R (1 / 100) 1000000000 (by norm_num) (by norm_num)
  set bd := R.rnd (R.rnd (2 * R.rnd (1 / 100)) * (1000000000 : Nat)) with hbd
  have hlo : 19999999 ≤ bd := by norm_num at l ⊢; linarith
  have hhi : bd * (1 + 1 / 10 ^ 8) < (20000001 : Nat) := by norm_num at u ⊢; linarith
  have hε : R.rnd (1 / 100) < R.rnd (2 / 10) := by
    have a := ((Near.refl (show (0 : Rat) < 1 / 100 by norm_num)).rnd R).bounds (by omega)
    have b := ((Near.refl (show (0 : Rat) < 2 / 10 by norm_num)).rnd R).bounds (by omega)
    norm_num at a b ⊢
    linarith [a.1, b.2]
  have hε0 : 0 ≤ R.rnd (1 / 100) := le_of_lt ((Near.refl (show (0 : Rat) < 1 / 100 by norm_num)).rnd R).xpos
  have hk10 : (10 : Int) * ksize R.rnd bd (1000000000 : Nat) 10 < 1000000000 := by
    obtain ⟨k1, k2, k3⟩ := ksize_ok R bd 1000000000 10 (by omega) (by omega) (by omega) (by norm_num)
    have hv : ∀ h < 4, 3 ≤ h → vxLe 1 1000 10 h = true := by decide +kernel
    have hge : 3 ≤ height R.rnd bd 10 37 3 := height_ge R (by omega) (by omega) (by omega) (fun h h3 h4 => by
      have := vx_le (hv h (by omega) h3)
      push_cast at this
      norm_num at *
      linarith)
    obtain ⟨H, e1, e2, e3⟩ := room_eq R bd 10
    have h55 : 55 ≤ roomOf R bd 10 := by
      rw [e3]
      have := room_mono (b := 10) (H := 1) (H' := H) (by omega) (by omega)
      have h55 : (10 + 1).choose (1 + 1) = 55 := by decide +kernel
      omega
    have hq : (55 : Rat) ≤ roomOf R bd 10 := by exact_mod_cast h55
    have h1 : ((1000000000 : Nat) : Rat) / roomOf R bd 10 ≤ 1000000000 / 55 := by
      rw [div_le_div_iff₀ (by linarith) (by norm_num)]
      push_cast
      nlinarith
    have : (ksize R.rnd bd (1000000000 : Nat) 10 : Rat) < 20000000 := by
      refine lt_trans k3 ?_
      norm_num at h1 ⊢
      linarith
    have : ksize R.rnd bd (1000000000 : Nat) 10 < 20000000 := by exact_mod_cast this
    omega
  obtain ⟨b, k, e⟩ := ctor_exists R (inN := 1000000000) hε (by omega) (by norm_num) (b' := 10) (by omega) (by omega) (by rw [hN, ← hbd]; exact hk10)
  obtain ⟨hb, hb', hk, hk2, _, bd', hbd', hkk, _, _, hle, _, hmin⟩ := ctor_spec R hε0 (by norm_num) e
  rw [hN, ← hbd] at hbd'
  subst hbd'
  rw [hN] at hmin hkk hle
  refine ⟨b, k, e, hb, ?_, hk, hk2⟩
  have tab : ∀ b < 30, 2 ≤ b → ∃ g ∈ [7, 8, 9, 10, 11, 12, 13, 14, 16, 18, 21, 26, 36, 40], (g = 40 ∨ (2 ≤ g ∧ g < 39 ∧ vxGe 1 20000001 b (g + 1) = true)) ∧
      b * ch (b + g - 2) (g - 1) ≤ 1000000000 := by decide +kernel
  obtain ⟨g, _, hg, hlt⟩ := tab b (by omega) hb
  have hr := room_le R hb hb' hhi hg
  obtain ⟨k1, k2, k3⟩ := ksize_ok R bd 1000000000 b hb hb' (by omega) (by norm_num)
  by_contra hgt
  generalize ksize R.rnd bd ((1000000000 : Nat) : Rat) b = kk at *
  have h0 : kk + 1 ≤ b := by omega
  have hrp : (0 : Int) < roomOf R bd b := by exact_mod_cast room_pos R bd b hb
  have h1 : (b : Int) * roomOf R bd b ≤ 1000000000 := by
    have : b * roomOf R bd b ≤ b * ch (b + g - 2) (g - 1) := Nat.mul_le_mul_left _ hr
    exact_mod_cast le_trans this hlt
  have h2 : (kk + 1) * roomOf R bd b ≤ b * roomOf R bd b := mul_le_mul_of_nonneg_right h0 (le_of_lt hrp)
  push_cast at k2
  linarith [add_mul kk 1 (roomOf R bd b : Int)]

end Verif.Quantile
