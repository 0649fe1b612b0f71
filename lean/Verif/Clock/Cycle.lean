import Verif.Clock.Lemmas

/-! # Lemmas on the cycle-counter clock -/

namespace Verif.Clock

open Verif.Flt

/-- What construction, readings and changes of the interval keep: the counts are ordered, and for a calibrated clock
every count within the interval converts without loss. -/
structure Good (F : Rounding) (i : ℚ) (c : Clk) : Prop where
  order : c.lastRecal ≤ c.lastCc
  cc64 : c.lastCc < 2 ^ 64
  small : c.interval < 2 ^ 30
  fits : ∀ d : Nat, d ≤ c.interval → F.rnd (d * i) < 2 ^ 30

theorem interval_fits (F : Rounding) {r i : ℚ} {g : Globals} (hr : g.rate = some r) (hi : g.inv = some i)
    {c c' : Clk} {s : ℚ} (h : setInterval F g c s = .ok c') :
    c' = { c with lastRecal := 0, interval := c'.interval } ∧ c'.interval < 2 ^ 30 ∧
      ∀ d : Nat, d ≤ c'.interval → F.rnd (d * i) < 2 ^ 30 := by
  unfold setInterval at h
  rw [hr, hi] at h
  simp only at h
  generalize F.rnd (F.rnd (s * 1000000) * r) = cy at h
  generalize hx : extraMul (some i) = x at h
  have hx1 : 1 ≤ x ∧ i ≤ x := by
    rw [← hx]; unfold extraMul; simp only; split
    · exact ⟨le_refl _, by linarith⟩
    · exact ⟨by linarith, le_refl _⟩
  by_cases hlt : F.rnd (cy * x) < 2 ^ 30
  · rw [decide_eq_true hlt] at h
    simp only [Res.require_true, Res.bind_ok, toU64] at h
    split at h
    · cases h
    · next hc =>
      push Not at hc
      simp only [Res.bind_ok, Res.pure_eq, Res.ok.injEq] at h
      subst h
      have key : ∀ d : Nat, d ≤ ⌊cy⌋.toNat → (d : ℚ) * x ≤ cy * x ∨ d = 0 := by
        intro d hd
        rcases Nat.eq_zero_or_pos d with h0 | h0
        · exact Or.inr h0
        · left
          have h1 : (d : ℤ) ≤ ⌊cy⌋ := by omega
          have h2 : ((d : ℤ) : ℚ) ≤ cy := Int.le_floor.1 h1
          have h3 : (d : ℚ) ≤ cy := by exact_mod_cast h2
          nlinarith
      have hz : F.rnd 0 = 0 := F.exact ⟨0, 0, by norm_num, by simp⟩
      refine ⟨rfl, ?_, ?_⟩
      · show ⌊cy⌋.toNat < 2 ^ 30
        rcases key ⌊cy⌋.toNat (le_refl _) with h1 | h1
        · by_contra hh
          push Not at hh
          have h30 : ((2 : ℚ) ^ 30) ≤ (⌊cy⌋.toNat : ℚ) := by exact_mod_cast hh
          have h4 : (2 : ℚ) ^ 30 ≤ cy * x := by
            have : (0 : ℚ) < 2 ^ 30 := by norm_num
            nlinarith
          have hd : IsDouble ((2 : ℚ) ^ 30) := ⟨1, 30, by norm_num, by norm_num⟩
          have := F.ge_of_double hd h4
          linarith
        · rw [h1]; norm_num
      · intro d hd
        rcases key d hd with h1 | h1
        · refine lt_of_le_of_lt (F.mono ?_) hlt
          have : (0 : ℚ) ≤ d := by positivity
          nlinarith
        · subst h1
          simp only [Nat.cast_zero, zero_mul, hz]; norm_num
  · rw [decide_eq_false hlt] at h
    cases h

theorem good_setInterval (F : Rounding) {r i : ℚ} {g : Globals} (hr : g.rate = some r) (hi : g.inv = some i)
    {c c' : Clk} (hc : c.lastCc < 2 ^ 64) {s : ℚ} (h : setInterval F g c s = .ok c') : Good F i c' := by
  obtain ⟨h1, h2, h3⟩ := interval_fits F hr hi h
  refine ⟨?_, ?_, h2, h3⟩
  · rw [h1]; exact Nat.zero_le _
  · rw [h1]; exact hc

/-- The machine's counters are 64-bit. -/
def Seen64 (e : Seen) : Prop := e.cc < 2 ^ 64 ∧ e.start < 2 ^ 64 ∧ e.stop < 2 ^ 64 ∧ e.tod < 2 ^ 64

theorem delta_eq {c : Clk} {e : Seen} (h : c.lastRecal ≤ e.cc) (he : e.cc < 2 ^ 64) : delta c e = e.cc - c.lastRecal := by
  unfold delta
  omega

theorem quiet_todcc {F : Rounding} {g : Globals} {i : ℚ} (hi : g.inv = some i) (hi0 : 0 < i) {c : Clk} (hg : Good F i c)
    {e : Seen} (he : Seen64 e) (hq : Quiet c e) :
    todcc F g c e = .ok ({ c with lastCc := e.cc },
      (c.lastCal + ⌊F.rnd (((e.cc - c.lastRecal : Nat) : ℚ) * i)⌋.toNat) % 2 ^ 64) := by
  have hd := delta_eq (c := c) (e := e) (by have := hg.order; have := hq.1; omega) he.1
  have hq2 := hq.2
  have hs := hg.small
  unfold todcc
  rw [hd, if_neg (by have := hq.1; omega), hi]
  have hm : (e.cc - c.lastRecal) % 2 ^ 32 = e.cc - c.lastRecal := Nat.mod_eq_of_lt (by omega)
  simp only [hm]
  have hf := hg.fits _ hq2
  have h0 : 0 ≤ F.rnd (((e.cc - c.lastRecal : Nat) : ℚ) * i) :=
    F.ge_of_double ⟨0, 0, by norm_num, by simp⟩ (by positivity)
  unfold toU32
  rw [if_neg (by push Not; exact ⟨by linarith, by linarith⟩)]
  rfl

theorem good_todcc {F : Rounding} {g : Globals} {i : ℚ} (hi : g.inv = some i) (hi0 : 0 < i) {c : Clk} (hg : Good F i c)
    {e : Seen} (he : Seen64 e) {c' : Clk} {v : Nat} (h : todcc F g c e = .ok (c', v)) : Good F i c' := by
  by_cases hq : Quiet c e
  · rw [quiet_todcc hi hi0 hg he hq] at h
    cases h
    exact ⟨by have := hg.order; have := hq.1; simp only; omega, he.1, hg.small, hg.fits⟩
  · unfold todcc at h
    split at h
    · unfold recalibrate at h
      split at h
      · cases h
      split at h
      · cases h; exact hg
      simp only [Res.bind_eq_ok] at h
      obtain ⟨_, _, _, _, h⟩ := h
      split at h
      · cases h; exact ⟨Nat.zero_le _, hg.cc64, hg.small, hg.fits⟩
      · cases h; exact ⟨le_refl _, by simp only; omega, hg.small, hg.fits⟩
    · next hn =>
      push Not at hn
      exact absurd ⟨hn.1, by rw [← delta_eq (c := c) (e := e) (by have := hg.order; omega) he.1]; exact hn.2⟩ hq

end Verif.Clock
