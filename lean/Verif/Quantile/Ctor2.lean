import Verif.Quantile.Ctor
import Verif.Clock.Lemmas

/-! # The sizes the public constructor picks, continued -/

namespace Verif.Quantile

open Verif

variable (R : Flt.Rounding)

theorem height_spec (r : Rat → Rat) (bd : Rat) (b : Nat) : ∀ (m h : Nat), h + m = 40 → 3 ≤ h →
    h - 1 ≤ height r bd b m h ∧ height r bd b m h ≤ 40 ∧ (∀ h', h ≤ h' → h' ≤ height r bd b m h → h' < 40 → paperV r b h' ≤ bd) ∧
      (height r bd b m h < 40 → bd < paperV r b (height r bd b m h + 1))
  | 0, h, hm, h3 => by
    have : h = 40 := by omega
    subst this
    simp only [height]
    exact ⟨by omega, by omega, fun h' a _ c => by omega, fun h => by omega⟩
  | m + 1, h, hm, h3 => by
    rw [height]
    split
    · next hgt =>
      exact ⟨by omega, by omega, fun h' a b c => by omega, fun _ => by rw [show h - 1 + 1 = h by omega]; exact hgt⟩
    · next hle =>
      obtain ⟨i1, i2, i3, i4⟩ := height_spec r bd b m (h + 1) (by omega) (by omega)
      refine ⟨by omega, i2, fun h' a b c => ?_, i4⟩
      by_cases e : h' = h
      · subst e; exact not_lt.1 hle
      · exact i3 h' (by omega) b c

/-- The tree of the height found. -/
def roomOf (bd : Rat) (b : Nat) : Nat := (b + height R.rnd bd b 37 3 - 2).choose (height R.rnd bd b 37 3 - 1)

theorem ksize_near (bd : Rat) (N b : Nat) (hb : 2 ≤ b) (hb' : b ≤ 29) (hN : 0 < N) :
    Near 140 (R.rnd (N / dchoose R.rnd (b + height R.rnd bd b 37 3 - 2) (height R.rnd bd b 37 3 - 1))) (N / roomOf R bd b) := by
  obtain ⟨i1, i2, _⟩ := height_spec R.rnd bd b 37 3 rfl (by omega)
  have n := near_choose R (b := b + height R.rnd bd b 37 3 - 2) (a := height R.rnd bd b 37 3 - 1) (by omega)
  exact (((Near.refl (show (0 : Rat) < N by exact_mod_cast hN)).div n).rnd R).mono (by omega)

theorem room_pos (bd : Rat) (b : Nat) (hb : 2 ≤ b) : 0 < roomOf R bd b := by
  obtain ⟨i1, i2, _⟩ := height_spec R.rnd bd b 37 3 rfl (by omega)
  exact Nat.choose_pos (by omega)

theorem ksize_ok (bd : Rat) (N b : Nat) (hb : 2 ≤ b) (hb' : b ≤ 29) (hN : 0 < N) (hN' : N ≤ 10 ^ 13) :
    0 < ksize R.rnd bd N b ∧ (N : Int) ≤ ksize R.rnd bd N b * roomOf R bd b ∧
      (ksize R.rnd bd N b : Rat) < N / roomOf R bd b * (1 + 1 / 10 ^ 12) + 1 := by
  have n := ksize_near R bd N b hb hb' hN
  have hC : (0 : Rat) < roomOf R bd b := by exact_mod_cast room_pos R bd b hb
  have hq : (0 : Rat) < N := by exact_mod_cast hN
  have hx := n.xpos
  have hk : ksize R.rnd bd N b = ⌈R.rnd (N / dchoose R.rnd (b + height R.rnd bd b 37 3 - 2) (height R.rnd bd b 37 3 - 1))⌉ := rfl
  rw [hk]
  have hup := (n.bounds (by omega)).1
  have hdown := n.down
  generalize R.rnd (N / dchoose R.rnd (b + height R.rnd bd b 37 3 - 2) (height R.rnd bd b 37 3 - 1)) = x at *
  have c1 := Int.le_ceil x
  have c2 := Int.ceil_lt_add_one x
  refine ⟨Int.ceil_pos.2 hx, ?_, by linarith⟩
  by_contra hlt
  have h1 : ⌈x⌉ * (roomOf R bd b : Int) + 1 ≤ N := by omega
  have h2 : (⌈x⌉ : Rat) * roomOf R bd b + 1 ≤ N := by exact_mod_cast h1
  have hw : w ^ 140 ≤ 1 + 4 / 10 ^ 14 := by norm_num [w]
  have h3 : (N : Rat) / roomOf R bd b ≤ ⌈x⌉ * (1 + 4 / 10 ^ 14) :=
    le_trans hdown (mul_le_mul c1 hw (le_of_lt (wpow_pos _)) (by linarith))
  rw [div_le_iff₀ hC] at h3
  have h4 : (N : Rat) ≤ 10 ^ 13 := by exact_mod_cast hN'
  have h5 : (⌈x⌉ : Rat) * (1 + 4 / 10 ^ 14) * roomOf R bd b = ⌈x⌉ * roomOf R bd b + 4 / 10 ^ 14 * (⌈x⌉ * roomOf R bd b) := by ring
  rw [h5] at h3
  generalize (⌈x⌉ : Rat) * roomOf R bd b = Y at *
  generalize (N : Rat) = M at *
  norm_num at h3 h4
  linarith

/-! ## The best number of buffers -/

theorem rnd_int (m : Int) (hm : 0 ≤ m) : (R.rnd m < 1000000000 ↔ m < 1000000000) ∧ (m < 1000000000 → R.rnd m = m) := by
  have hex : m < 1000000000 → R.rnd m = m := fun h => R.exact (Flt.isDouble_int m (by rw [abs_of_nonneg hm]; norm_num; omega))
  refine ⟨⟨fun h => ?_, fun h => by rw [hex h]; exact_mod_cast h⟩, hex⟩
  by_contra hn
  have : (1000000000 : Rat) ≤ R.rnd m := R.ge_of_double (by simpa using Flt.isDouble_int 1000000000 (by norm_num)) (by exact_mod_cast not_lt.1 hn)
  linarith

theorem pick_spec (bd : Rat) (N : Nat) (hk : ∀ b, 2 ≤ b → b ≤ 29 → 0 < ksize R.rnd bd N b) : ∀ (l : List Nat) (seen : List Nat) (best : Option (Nat × Int)),
    (∀ b ∈ seen ++ l, 2 ≤ b ∧ b ≤ 29) →
    (∀ b k, best = some (b, k) → b ∈ seen ∧ k = ksize R.rnd bd N b ∧ b * k < 1000000000) →
    (∀ b' ∈ seen, (b' : Int) * ksize R.rnd bd N b' < 1000000000 → ∃ b k, best = some (b, k) ∧ b * k ≤ b' * ksize R.rnd bd N b') →
    (∀ b k, l.foldl (betterB R.rnd bd N) best = some (b, k) → b ∈ seen ++ l ∧ k = ksize R.rnd bd N b ∧ b * k < 1000000000) ∧
    (∀ b' ∈ seen ++ l, (b' : Int) * ksize R.rnd bd N b' < 1000000000 →
      ∃ b k, l.foldl (betterB R.rnd bd N) best = some (b, k) ∧ b * k ≤ b' * ksize R.rnd bd N b')
  | [], seen, best, hr, h1, h2 => by simpa using ⟨h1, h2⟩
  | a :: l, seen, best, hr, h1, h2 => by
    have ha := hr a (by simp)
    have hka := hk a ha.1 ha.2
    have hm : (0 : Int) ≤ a * ksize R.rnd bd N a := by positivity
    obtain ⟨r1, r2⟩ := rnd_int R (a * ksize R.rnd bd N a) hm
    push_cast at r1 r2
    have hstep : (∀ b k, betterB R.rnd bd N best a = some (b, k) → b ∈ seen ++ [a] ∧ k = ksize R.rnd bd N b ∧ b * k < 1000000000) ∧
        (∀ b' ∈ seen ++ [a], (b' : Int) * ksize R.rnd bd N b' < 1000000000 →
          ∃ b k, betterB R.rnd bd N best a = some (b, k) ∧ b * k ≤ b' * ksize R.rnd bd N b') := by
      unfold betterB
      by_cases hlt : (a : Int) * ksize R.rnd bd N a < 1000000000
      · rw [if_pos (r1.2 hlt)]
        cases hbest : best with
        | none =>
          simp only [Option.some.injEq, Prod.mk.injEq]
          refine ⟨?_, ?_⟩
          · rintro b k ⟨rfl, rfl⟩
            exact ⟨by simp, rfl, hlt⟩
          · intro b' hb' hb2
            rcases List.mem_append.1 hb' with hb' | hb'
            · obtain ⟨b, k, e, _⟩ := h2 b' hb' hb2
              rw [hbest] at e; cases e
            · rw [List.mem_singleton] at hb'
              subst hb'
              exact ⟨_, _, ⟨rfl, rfl⟩, le_refl _⟩
        | some p =>
          obtain ⟨b0, k0⟩ := p
          obtain ⟨g1, g2, g3⟩ := h1 b0 k0 hbest
          simp only []
          rw [r2 hlt]
          by_cases hc : (a : Int) * ksize R.rnd bd N a < b0 * k0
          · rw [if_pos (by exact_mod_cast hc)]
            simp only [Option.some.injEq, Prod.mk.injEq]
            refine ⟨?_, ?_⟩
            · rintro b k ⟨rfl, rfl⟩
              exact ⟨by simp, rfl, hlt⟩
            · intro b' hb' hb2
              refine ⟨_, _, ⟨rfl, rfl⟩, ?_⟩
              rcases List.mem_append.1 hb' with hb' | hb'
              · obtain ⟨b, k, e, hle⟩ := h2 b' hb' hb2
                rw [hbest, Option.some.injEq, Prod.mk.injEq] at e
                obtain ⟨rfl, rfl⟩ := e
                exact le_of_lt (lt_of_lt_of_le hc hle)
              · rw [List.mem_singleton] at hb'
                subst hb'
                exact le_refl _
          · rw [if_neg (by exact_mod_cast hc)]
            simp only [Option.some.injEq, Prod.mk.injEq]
            refine ⟨?_, ?_⟩
            · rintro b k ⟨rfl, rfl⟩
              exact ⟨List.mem_append_left _ g1, g2, g3⟩
            · intro b' hb' hb2
              refine ⟨_, _, ⟨rfl, rfl⟩, ?_⟩
              rcases List.mem_append.1 hb' with hb' | hb'
              · obtain ⟨b, k, e, hle⟩ := h2 b' hb' hb2
                rw [hbest, Option.some.injEq, Prod.mk.injEq] at e
                obtain ⟨rfl, rfl⟩ := e
                exact hle
              · rw [List.mem_singleton] at hb'
                subst hb'
                exact not_lt.1 hc
      · rw [if_neg (fun h => hlt (r1.1 h))]
        refine ⟨fun b k e => ?_, fun b' hb' hb2 => ?_⟩
        · obtain ⟨g1, g2⟩ := h1 b k e
          exact ⟨List.mem_append_left _ g1, g2⟩
        · rcases List.mem_append.1 hb' with hb' | hb'
          · exact h2 b' hb' hb2
          · rw [List.mem_singleton] at hb'
            subst hb'
            exact absurd hb2 hlt
    have := pick_spec bd N hk l (seen ++ [a]) (betterB R.rnd bd N best a) (by simpa using hr) hstep.1 hstep.2
    rw [List.foldl_cons]
    simpa using this

/-- What the constructor's result satisfies. -/
theorem ctor_spec {ε : Rat} {inN b k : Nat} (hε : 0 ≤ ε) (hN : inN ≤ 10 ^ 13) (h : ctor R.rnd ε inN = .ok (b, k)) :
    2 ≤ b ∧ b ≤ 29 ∧ 10 ≤ k ∧ k < 2147483648 ∧ ε ≤ 2001 / 10000 ∧
      ∃ bd : Rat, bd = R.rnd (R.rnd (2 * ε) * (max 100 inN : Nat)) ∧ k = max 10 (ksize R.rnd bd (max 100 inN : Nat) b).toNat ∧ (0 ≤ bd) ∧ (bd ≤ 2 * ε * (max 100 inN : Nat) * (1 + 1 / 10 ^ 12)) ∧ ksize R.rnd bd (max 100 inN : Nat) b ≤ k ∧
        (b : Int) * ksize R.rnd bd (max 100 inN : Nat) b < 1000000000 ∧
        ∀ b' : Nat, 2 ≤ b' → b' ≤ 29 → (b' : Int) * ksize R.rnd bd (max 100 inN : Nat) b' < 1000000000 →
          (b : Int) * ksize R.rnd bd (max 100 inN : Nat) b ≤ b' * ksize R.rnd bd (max 100 inN : Nat) b' := by
  set N := max 100 inN with hNdef
  have hN0 : 0 < N := by omega
  have hN1 : N ≤ 10 ^ 13 := by omega
  have hNr : R.rnd (N : Rat) = N := R.exact (by simpa using Flt.isDouble_int N (by rw [abs_of_nonneg (by positivity)]; norm_num; omega))
  unfold ctor at h
  rw [← hNdef, hNr] at h
  by_cases h1 : ε < R.rnd (2 / 10)
  · rw [decide_eq_true h1, Res.require_true, Res.bind_ok] at h
    by_cases h2 : 1 < inN
    · rw [decide_eq_true h2, Res.require_true, Res.bind_ok] at h
      simp only [] at h
      set bd := R.rnd (R.rnd (2 * ε) * N) with hbd
      have hp := pick_spec R bd N (fun b hb hb' => (ksize_ok R bd N b hb hb' hN0 hN1).1) (List.range' 2 28) [] none
        (by intro b hb; simp [List.mem_range'] at hb; omega) (by simp) (by simp)
      cases hf : (List.range' 2 28).foldl (betterB R.rnd bd N) none with
      | none => rw [hf] at h; cases h
      | some p =>
        obtain ⟨b0, k0⟩ := p
        rw [hf] at h
        obtain ⟨g1, g2, g3⟩ := hp.1 b0 k0 hf
        have hb0 : 2 ≤ b0 ∧ b0 ≤ 29 := by simp [List.mem_range'] at g1; omega
        obtain ⟨k1, k2, k3⟩ := ksize_ok R bd N b0 hb0.1 hb0.2 hN0 hN1
        have hpos : 0 < k0 := by rw [g2]; exact k1
        simp only [hpos, decide_true, Res.require_true, Res.bind_ok, Res.pure_eq, Res.ok.injEq, Prod.mk.injEq] at h
        obtain ⟨rfl, rfl⟩ := h
        have hk0 : k0 < 1000000000 := by
          have : (2 : Int) ≤ b0 := by exact_mod_cast hb0.1
          nlinarith
        refine ⟨hb0.1, hb0.2, Nat.le_max_left _ _, by omega, ?_, bd, rfl, by rw [g2], ?_, ?_, ?_, by rw [← g2]; exact g3, ?_⟩
        · have e := R.err (2 / 10)
          rw [abs_le] at e
          norm_num at e ⊢
          have : R.rnd (1 / 5) = R.rnd (2 / 10) := by norm_num
          norm_num at h1
          linarith [e.2]
        · have z : R.rnd (0 : Rat) = 0 := R.exact (by simpa using Flt.isDouble_int 0 (by norm_num))
          have a1 : 0 ≤ R.rnd (2 * ε) := by rw [← z]; exact R.mono (by linarith)
          rw [hbd, ← z]
          exact R.mono (mul_nonneg a1 (by positivity))
        · rcases hε.lt_or_eq with hpos | h0
          · have n := (((Near.refl (show 0 < 2 * ε by linarith)).rnd R).mul (Near.refl (show (0 : Rat) < N by exact_mod_cast hN0))).rnd R
            exact (n.bounds (by omega)).1
          · have z : R.rnd (0 : Rat) = 0 := R.exact (by simpa using Flt.isDouble_int 0 (by norm_num))
            rw [hbd, ← h0]
            simp [z]
        · rw [← g2]
          omega
        · intro b' hb1 hb2 hlt
          obtain ⟨b, k, e, hle⟩ := hp.2 b' (by simp only [List.nil_append, List.mem_range']; exact ⟨b' - 2, by omega, by omega⟩) hlt
          rw [hf, Option.some.injEq, Prod.mk.injEq] at e
          obtain ⟨rfl, rfl⟩ := e
          rw [← g2]; exact hle
    · rw [decide_eq_false h2, Res.require_false, Res.bind_abort] at h; cases h
  · rw [decide_eq_false h1, Res.require_false, Res.bind_abort] at h; cases h

/-- When the constructor succeeds. -/
theorem ctor_exists {ε : Rat} {inN : Nat} (hε : ε < R.rnd (2 / 10)) (h1 : 1 < inN) (hN : inN ≤ 10 ^ 13) {b' : Nat} (hb : 2 ≤ b') (hb' : b' ≤ 29)
    (hlt : (b' : Int) * ksize R.rnd (R.rnd (R.rnd (2 * ε) * (max 100 inN : Nat))) (max 100 inN : Nat) b' < 1000000000) : ∃ b k, ctor R.rnd ε inN = .ok (b, k) := by
  generalize hNdef : max 100 inN = N at *
  have hN0 : 0 < N := by omega
  have hN1 : N ≤ 10 ^ 13 := by omega
  have hNr : R.rnd (N : Rat) = N := R.exact (by simpa using Flt.isDouble_int N (by rw [abs_of_nonneg (by positivity)]; norm_num; omega))
  unfold ctor
  rw [hNdef, hNr, decide_eq_true hε, Res.require_true, Res.bind_ok, decide_eq_true h1, Res.require_true, Res.bind_ok]
  simp only []
  set bd := R.rnd (R.rnd (2 * ε) * N) with hbd
  have hp := pick_spec R bd N (fun b hb hb' => (ksize_ok R bd N b hb hb' hN0 hN1).1) (List.range' 2 28) [] none
    (by intro b hb; simp [List.mem_range'] at hb; omega) (by simp) (by simp)
  obtain ⟨b, k, e, hle⟩ := hp.2 b' (by simp only [List.nil_append, List.mem_range']; exact ⟨b' - 2, by omega, by omega⟩) hlt
  obtain ⟨g1, g2, g3⟩ := hp.1 b k e
  have hb0 : 2 ≤ b ∧ b ≤ 29 := by simp [List.mem_range'] at g1; omega
  have hk := (ksize_ok R bd N b hb0.1 hb0.2 hN0 hN1).1
  rw [← g2] at hk
  rw [e]
  simp only [hk, decide_true, Res.require_true, Res.bind_ok]
  exact ⟨_, _, rfl⟩

/-! ## What it is good for -/

theorem room_eq (bd : Rat) (b : Nat) : ∃ H, height R.rnd bd b 37 3 = H + 2 ∧ H ≤ 38 ∧ roomOf R bd b = (b + H).choose (H + 1) := by
  obtain ⟨i1, i2, _⟩ := height_spec R.rnd bd b 37 3 rfl (by omega)
  refine ⟨height R.rnd bd b 37 3 - 2, by omega, by omega, ?_⟩
  unfold roomOf
  congr 1 <;> omega

theorem ratio_step (b : Nat) (hb : 2 ≤ b) (hb' : b ≤ 29) :
    ratio b 38 * (b + 38).choose 39 ≤ 19 / 10 * (ratio b 37 * (b + 37).choose 38) := by
  have qb : (2 : Rat) ≤ b := by exact_mod_cast hb
  have qb' : (b : Rat) ≤ 29 := by exact_mod_cast hb'
  have hC : ((b + 38).choose 39 : Rat) * 39 = (b + 38) * (b + 37).choose 38 := by
    have : (b + 37 + 1) * (b + 37).choose 38 = (b + 37 + 1).choose (38 + 1) * (38 + 1) := Nat.add_one_mul_choose_eq _ _
    have q : ((b : Rat) + 37 + 1) * (b + 37).choose 38 = (b + 37 + 1).choose (38 + 1) * (38 + 1) := by exact_mod_cast this
    rw [show b + 37 + 1 = b + 38 by omega, show 38 + 1 = 39 by omega] at q
    linarith
  have hpos : (0 : Rat) < (b + 37).choose 38 := by exact_mod_cast Nat.choose_pos (by omega)
  have hpos' : (0 : Rat) ≤ (b + 38).choose 39 := Nat.cast_nonneg _
  generalize ((b + 38).choose 39 : Rat) = X at *
  generalize ((b + 37).choose 38 : Rat) = Y at *
  have h1 : ratio b 38 ≤ ratio b 37 + 1 := by
    unfold ratio
    push_cast
    have : (37 : Rat) * (37 - 1) / (b * (b + 37 - 1)) ≤ 38 * (38 - 1) / (b * (b + 38 - 1)) := by
      rw [div_le_div_iff₀ (by nlinarith) (by nlinarith)]
      nlinarith
    linarith
  have h2 : (19 : Rat) ≤ ratio b 37 := by
    unfold ratio
    push_cast
    have : (37 : Rat) * (37 - 1) / (b * (b + 37 - 1)) ≤ 18 := by
      rw [div_le_iff₀ (by nlinarith)]
      nlinarith
    linarith
  have h3 : ratio b 38 ≤ 20 / 19 * ratio b 37 := by linarith
  have h4 : X ≤ 67 / 39 * Y := by nlinarith
  calc ratio b 38 * X ≤ (20 / 19 * ratio b 37) * (67 / 39 * Y) := mul_le_mul h3 h4 hpos' (by linarith)
    _ ≤ _ := by nlinarith [mul_pos (show (0 : Rat) < ratio b 37 by linarith) hpos]

theorem vx_ratio (b l : Nat) (hb : 2 ≤ b) (hl : 1 ≤ l) (hb' : b ≤ 29) (hl' : l ≤ 38) : (1 + 1 / 10 ^ 4) * (ratio b l * (b + l).choose (l + 1)) ≤ vx b (l + 2) := by
  have := (vx_parts b l hb hl hb' hl').2.2.2
  unfold vx
  rw [show b + (l + 2) - 2 = b + l by omega, show l + 2 - 1 = l + 1 by omega, show b + (l + 2) - 3 = b + l - 1 by omega, show l + 2 - 3 = l - 1 by omega,
    show l + 2 - 2 = l by omega]
  exact this

/-- A height that was checked. -/
theorem checked {ε bd : Rat} {N b h : Nat} (hb : 2 ≤ b) (hb' : b ≤ 29) (hh : 3 ≤ h) (hh' : h ≤ 40) (hε : 0 ≤ ε) (hbd : bd ≤ 2 * ε * N * (1 + 1 / 10 ^ 12))
    (hle : paperV R.rnd b h ≤ bd) : vx b h ≤ 2 * ε * N * (1 + 1 / 10 ^ 9) := by
  obtain ⟨p0, _, p2⟩ := near_paperV R b h hb hb' hh hh'
  have hn : 0 ≤ 2 * ε * N := by positivity
  generalize 2 * ε * (N : Rat) = M at *
  norm_num at *
  linarith

theorem ctor_covers_two {ε : Rat} {inN b k : Nat} (hε : 0 ≤ ε) (hN : inN ≤ 10 ^ 13) (h : ctor R.rnd ε inN = .ok (b, k)) :
    Covers (2 * ε) (max 100 inN) b k ∧ (∀ bd, bd ≤ 2 * ε * (max 100 inN : Nat) * (1 + 1 / 10 ^ 12) → ksize R.rnd bd (max 100 inN : Nat) b ≤ k →
      height R.rnd bd b 37 3 < 40 → Covers ε (max 100 inN) b k) := by
  obtain ⟨hb, hb', hk, _, _, bd, _, _, hbd0, hbd, hks, _⟩ := ctor_spec R hε hN h
  generalize hNN : max 100 inN = N at *
  have hN0 : 0 < N := by omega
  have hN1 : N ≤ 10 ^ 13 := by omega
  have main : ∀ bd : Rat, bd ≤ 2 * ε * N * (1 + 1 / 10 ^ 12) → ksize R.rnd bd N b ≤ k → ∃ H, height R.rnd bd b 37 3 = H + 2 ∧ H ≤ 38 ∧
      N ≤ k * (b + H).choose (H + 1) ∧ (H ≤ 37 → ratio b H * (b + H).choose (H + 1) ≤ 2 * ε * N) ∧
        (H = 38 → ratio b H * (b + H).choose (H + 1) ≤ 2 * (2 * ε) * N) := by
    intro bd hbd hks
    obtain ⟨H, e1, e2, e3⟩ := room_eq R bd b
    obtain ⟨_, _, i3, _⟩ := height_spec R.rnd bd b 37 3 rfl (by omega)
    rw [e1] at i3
    obtain ⟨_, k2, _⟩ := ksize_ok R bd N b hb hb' hN0 hN1
    have hn : 0 ≤ 2 * ε * N := by positivity
    refine ⟨H, e1, e2, ?_, ?_, ?_⟩
    · rw [e3] at k2
      have : ksize R.rnd bd N b * ((b + H).choose (H + 1) : Int) ≤ k * (b + H).choose (H + 1) := mul_le_mul_of_nonneg_right hks (by positivity)
      exact_mod_cast le_trans k2 this
    · intro hH
      by_cases h0 : H = 0
      · subst h0; rw [ratio_zero, zero_mul]; exact hn
      · have a1 := checked R hb hb' (by omega) (by omega) hε hbd (i3 (H + 2) (by omega) (le_refl _) (by omega))
        have a2 := vx_ratio b H hb (by omega) hb' (by omega)
        generalize 2 * ε * (N : Rat) = M at *
        norm_num at *
        linarith
    · intro hH
      subst hH
      have a1 := checked R hb hb' (h := 39) (by omega) (by omega) hε hbd (i3 39 (by omega) (by omega) (by omega))
      have a2 := vx_ratio b 37 hb (by omega) hb' (by omega)
      have a3 := ratio_step b hb hb'
      rw [show 2 * (2 * ε) * (N : Rat) = 2 * (2 * ε * N) by ring]
      generalize 2 * ε * (N : Rat) = M at *
      norm_num at *
      linarith
  refine ⟨?_, ?_⟩
  · obtain ⟨H, e1, e2, m1, m2, m3⟩ := main bd hbd hks
    refine ⟨by linarith, H, ?_, m1⟩
    by_cases hH : H = 38
    · exact m3 hH
    · have := m2 (by omega)
      have hn : 0 ≤ 2 * ε * N := by positivity
      linarith
  · intro bd hbd hks hlt
    obtain ⟨H, e1, e2, m1, m2, _⟩ := main bd hbd hks
    exact ⟨hε, H, m2 (by omega), m1⟩

end Verif.Quantile
