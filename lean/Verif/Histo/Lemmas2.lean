import Verif.Histo.Lemmas

/-! # The histogram in exact arithmetic -/

namespace Verif.Histo

open Verif

/-- The bin for a value. -/
def key (low w : Rat) (n : Nat) (v : Rat) : Nat := min (n - 1) ⌊(v - low) / w⌋.toNat

theorem key_lt {low w : Rat} {n : Nat} (hn : 0 < n) (v : Rat) : key low w n v < n := by unfold key; omega

theorem floor_bounds {w x : Rat} (hw : 0 < w) : (⌊x / w⌋ : Rat) * w ≤ x ∧ x < (⌊x / w⌋ + 1) * w := by
  have h1 := Int.floor_le (x / w)
  have h2 := Int.lt_floor_add_one (x / w)
  rw [le_div_iff₀ hw] at h1
  rw [div_lt_iff₀ hw] at h2
  exact ⟨h1, h2⟩

theorem le_floor_div {w x : Rat} (hw : 0 < w) (i : Int) : i ≤ ⌊x / w⌋ ↔ (i : Rat) * w ≤ x := by
  rw [Int.le_floor, le_div_iff₀ hw]

theorem key_iff {low w : Rat} {n i : Nat} (hw : 0 < w) (hi : i < n) (v : Rat) : key low w n v = i ↔ inBin low w n i v = true := by
  have h1 := le_floor_div (x := v - low) hw (i : Int)
  have h2 := le_floor_div (x := v - low) hw ((i : Int) + 1)
  unfold key inBin
  rw [decide_eq_true_eq]
  have e1 : low + i * w ≤ v ↔ (((i : Int) : Rat) * w ≤ v - low) := by push_cast; constructor <;> intro h <;> linarith
  have e2 : v < low + (i + 1) * w ↔ ¬(((i : Int) + 1 : Int) : Rat) * w ≤ v - low := by push_cast; rw [not_le]; constructor <;> intro h <;> linarith
  rw [e1, e2, ← h1, ← h2]
  omega

theorem key_inRange {low w : Rat} {n : Nat} (hn : 0 < n) (hw : 0 < w) {v : Rat} (h1 : low ≤ v) (h2 : v < low + n * w) : (key low w n v : Int) = ⌊(v - low) / w⌋ := by
  have g1 := (le_floor_div (x := v - low) hw 0).2 (by push_cast; linarith)
  have g2 := le_floor_div (x := v - low) hw (n : Int)
  have : ¬((n : Int) ≤ ⌊(v - low) / w⌋) := by rw [g2]; push_cast; linarith
  unfold key
  omega

/-- A bin of twice the width. -/
theorem floor_half (x : Rat) : ⌊x / 2⌋ = ⌊x⌋ / 2 := by
  have := Int.floor_div_natCast x 2
  simpa using this

/-! ## The invariant -/

/-- What holds of a histogram with the values `vs` in it. -/
structure Inv (h : H) (vs : List Rat) : Prop where
  n : 0 < h.n
  width : 0 < h.width
  span : h.low + h.n * h.width = h.high
  bins : h.bins = tally h.n (vs.map fun v => (key h.low h.width h.n v, 1))
  number : h.st = Stats.eval id (Stats.adds .new vs)
  inside : h.scal = true ∨ h.grow = true → ∀ v ∈ vs, h.low ≤ v ∧ v < h.high
  even : h.scal = true → ∃ m, h.n = 2 * m
  one : ¬(h.scal = true ∧ h.grow = true)

theorem toU32_floor {x : Rat} (h0 : 0 ≤ x) (h1 : x < 2 ^ 32) : Clock.toU32 ((⌊x⌋ : Int) : Rat) = .ok ⌊x⌋.toNat := by
  have g0 : 0 ≤ ⌊x⌋ := Int.floor_nonneg.2 h0
  have g1 : ⌊x⌋ < 2 ^ 32 := by
    rw [Int.floor_lt]; push_cast; exact h1
  obtain ⟨k, hk⟩ := Int.eq_ofNat_of_zero_le g0
  rw [hk] at g1 ⊢
  unfold Clock.toU32
  have g1' : ((k : Int) : Rat) < 2 ^ 32 := by exact_mod_cast g1
  have g0' : (0 : Rat) ≤ ((k : Int) : Rat) := by exact_mod_cast Nat.zero_le k
  rw [if_neg (by push Not; exact ⟨by linarith, g1'⟩), Int.floor_intCast]

theorem cell_ok {w d : Rat} (hw : 0 < w) (h0 : 0 ≤ d) (h1 : d < 2 ^ 32 * w) : cell id w d = .ok ⌊d / w⌋.toNat := by
  unfold cell
  rw [if_neg (ne_of_gt hw)]
  exact toU32_floor (div_nonneg h0 (le_of_lt hw)) (by rw [id, div_lt_iff₀ hw]; exact h1)

theorem sampleBin_ok {h : H} {vs : List Rat} (hI : Inv h vs) (hn : h.n < 2 ^ 32) (v : Rat) : sampleBin id h v = .ok (key h.low h.width h.n v) := by
  have hw := hI.width
  have hs := hI.span
  have hnq : (h.n : Rat) < 2 ^ 32 := by exact_mod_cast hn
  have hpos : (0 : Rat) < h.n * h.width := mul_pos (by exact_mod_cast hI.n) hw
  unfold sampleBin
  split
  · rename_i hv
    congr 1
    symm
    rw [key_iff hw hI.n]
    unfold inBin
    rw [decide_eq_true_eq]
    refine ⟨Or.inl rfl, Or.inr ?_⟩
    push_cast; linarith
  · rename_i hv
    split
    · rename_i hv'
      congr 1
      symm
      rw [key_iff hw (by have := hI.n; omega)]
      unfold inBin
      rw [decide_eq_true_eq]
      refine ⟨Or.inr ?_, Or.inl (by have := hI.n; omega)⟩
      have : ((h.n - 1 : Nat) : Rat) * h.width ≤ h.n * h.width := mul_le_mul_of_nonneg_right (by exact_mod_cast Nat.sub_le _ _) (le_of_lt hw)
      linarith
    · rename_i hv'
      have hv1 : 0 ≤ v - h.low := by linarith [not_le.1 hv]
      have hk := key_inRange (low := h.low) hI.n hw (v := v) (by linarith) (by linarith [not_le.1 hv'])
      simp only [id]
      rw [cell_ok hw hv1 (by have : (h.n : Rat) * h.width < 2 ^ 32 * h.width := mul_lt_mul_of_pos_right hnq hw
                             linarith [not_le.1 hv'])]
      congr 1
      omega

theorem grown_eq {n f : Nat} (hf : f + 1 < 2 ^ 31) (hn : n * 2 < 2 ^ 31) : grown n f = max (n * 2) (f + 1) := by
  unfold grown
  simp only []
  rw [Nat.mod_eq_of_lt (by omega : f + 1 < 2 ^ 32), Nat.mod_eq_of_lt (by omega : 2 * (f + 1) < 2 ^ 32), Nat.mod_eq_of_lt (by omega : n * 2 < 2 ^ 32),
    Nat.mul_div_cancel_left _ (by omega)]
  split <;> omega

/-- What changes when a histogram makes room for a value. -/
structure Room (h h' : H) (v : Rat) : Prop where
  scal : h'.scal = h.scal
  grow : h'.grow = h.grow
  st : h'.st = h.st
  low : h'.low ≤ h.low
  high : h.high ≤ h'.high
  inside : h'.low ≤ v ∧ v < h'.high

/-- Inside part of the invariant, used when making room. -/
structure Core (h : H) (vs : List Rat) : Prop where
  n : 0 < h.n
  width : 0 < h.width
  span : h.low + h.n * h.width = h.high
  bins : h.bins = tally h.n (vs.map fun v => (key h.low h.width h.n v, 1))
  inside : ∀ v ∈ vs, h.low ≤ v ∧ v < h.high

theorem map_congr_tally {n : Nat} {vs : List Rat} {f g : Rat → Nat} (h : ∀ v ∈ vs, f v = g v) :
    tally n (vs.map fun v => (f v, (1 : Nat))) = tally n (vs.map fun v => (g v, 1)) := by
  congr 1
  exact List.map_congr_left fun v hv => by rw [h v hv]

theorem growUp_ok {h : H} {vs : List Rat} (hC : Core h vs) {v : Rat} (hv : h.high ≤ v) (hn : h.n * 2 < 2 ^ 31) (hf : v - h.low < (2 ^ 31 - 1) * h.width) :
    ∃ h', growUp id h v = .ok h' ∧ Core h' vs ∧ Room h h' v ∧ h'.low = h.low ∧ h'.width = h.width ∧ h'.n = max (h.n * 2) (⌊(v - h.low) / h.width⌋.toNat + 1) := by
  have hw := hC.width
  have hs := hC.span
  have hpos : (0 : Rat) < h.n * h.width := mul_pos (by exact_mod_cast hC.n) hw
  have hd : 0 ≤ v - h.low := by linarith
  have hb := floor_bounds (x := v - h.low) hw
  have hf0 : 0 ≤ ⌊(v - h.low) / h.width⌋ := (le_floor_div hw 0).2 (by push_cast; linarith)
  obtain ⟨f, hfe⟩ := Int.eq_ofNat_of_zero_le hf0
  have hflt : f + 1 < 2 ^ 31 := by
    have : ¬(((2 ^ 31 - 1 : Nat) : Int) ≤ ⌊(v - h.low) / h.width⌋) := by
      rw [le_floor_div hw]; push_cast; linarith
    rw [hfe] at this
    push_cast at this
    omega
  have hm : grown h.n f = max (h.n * 2) (f + 1) := grown_eq hflt hn
  refine ⟨{ h with bins := h.bins ++ List.replicate (max (h.n * 2) (f + 1) - h.n) 0, n := max (h.n * 2) (f + 1), high := h.low + (max (h.n * 2) (f + 1) : Nat) * h.width }, ?_, ?_, ?_, rfl, rfl, ?_⟩
  · unfold growUp
    simp only [id]
    rw [cell_ok hw hd (by linarith), Res.bind_ok, hfe, Int.toNat_natCast, hm, if_pos (by omega)]
    rfl
  · have hge : (h.n : Rat) * h.width ≤ (max (h.n * 2) (f + 1) : Nat) * h.width :=
      mul_le_mul_of_nonneg_right (by exact_mod_cast (by omega : h.n ≤ max (h.n * 2) (f + 1))) (le_of_lt hw)
    refine ⟨by show 0 < max _ _; omega, hw, rfl, ?_, ?_⟩
    · show h.bins ++ _ = _
      rw [hC.bins, tally_growUp _ _ (by omega) _ (fun x hx => by
        obtain ⟨u, _, rfl⟩ := List.mem_map.1 hx
        exact key_lt hC.n u)]
      refine map_congr_tally fun u hu => ?_
      obtain ⟨i1, i2⟩ := hC.inside u hu
      have k1 := key_inRange hC.n hw i1 (by rw [hs]; exact i2)
      have k2 := key_inRange (n := max (h.n * 2) (f + 1)) (by omega) hw i1 (by linarith)
      have : (key h.low h.width h.n u : Int) = key h.low h.width (max (h.n * 2) (f + 1)) u := by rw [k1, k2]
      exact_mod_cast this
    · intro u hu
      obtain ⟨i1, i2⟩ := hC.inside u hu
      exact ⟨i1, by show u < h.low + _; linarith⟩
  · have hge : (h.n : Rat) * h.width ≤ (max (h.n * 2) (f + 1) : Nat) * h.width :=
      mul_le_mul_of_nonneg_right (by exact_mod_cast (by omega : h.n ≤ max (h.n * 2) (f + 1))) (le_of_lt hw)
    have hge2 : ((f + 1 : Nat) : Rat) * h.width ≤ (max (h.n * 2) (f + 1) : Nat) * h.width :=
      mul_le_mul_of_nonneg_right (by exact_mod_cast (by omega : f + 1 ≤ max (h.n * 2) (f + 1))) (le_of_lt hw)
    rw [hfe] at hb
    push_cast at hb hge2
    refine ⟨rfl, rfl, rfl, le_refl _, ?_, ?_, ?_⟩
    · show h.high ≤ h.low + _; linarith
    · show h.low ≤ v; linarith
    · show v < h.low + _; push_cast; linarith [hb.2]
  · rw [hfe]; rfl

theorem growDown_ok {h : H} {vs : List Rat} (hC : Core h vs) {v : Rat} (hv : v < h.low) (hn : h.n * 2 < 2 ^ 31) (hf : h.high - v < (2 ^ 31 - 1) * h.width) :
    ∃ h', growDown id h v = .ok h' ∧ Core h' vs ∧ Room h h' v ∧ h'.high = h.high ∧ h'.width = h.width ∧ h'.n = max (h.n * 2) (⌊(h.high - v) / h.width⌋.toNat + 1) := by
  have hw := hC.width
  have hs := hC.span
  have hpos : (0 : Rat) < h.n * h.width := mul_pos (by exact_mod_cast hC.n) hw
  have hd : 0 ≤ h.high - v := by linarith
  have hb := floor_bounds (x := h.high - v) hw
  have hf0 : 0 ≤ ⌊(h.high - v) / h.width⌋ := (le_floor_div hw 0).2 (by push_cast; linarith)
  obtain ⟨f, hfe⟩ := Int.eq_ofNat_of_zero_le hf0
  have hflt : f + 1 < 2 ^ 31 := by
    have : ¬(((2 ^ 31 - 1 : Nat) : Int) ≤ ⌊(h.high - v) / h.width⌋) := by
      rw [le_floor_div hw]; push_cast; linarith
    rw [hfe] at this
    push_cast at this
    omega
  have hm : grown h.n f = max (h.n * 2) (f + 1) := grown_eq hflt hn
  generalize hM : max (h.n * 2) (f + 1) = M at *
  refine ⟨{ h with bins := List.replicate (M - h.n) 0 ++ h.bins, n := M, low := h.high - M * h.width }, ?_, ?_, ?_, rfl, rfl, ?_⟩
  · unfold growDown
    simp only [id]
    rw [cell_ok hw hd (by linarith), Res.bind_ok, hfe, Int.toNat_natCast, hm, if_pos (by omega)]
    rfl
  · have hge : (h.n : Rat) * h.width ≤ (M : Rat) * h.width :=
      mul_le_mul_of_nonneg_right (by exact_mod_cast (by omega : h.n ≤ M)) (le_of_lt hw)
    refine ⟨by show 0 < M; omega, hw, by show h.high - _ + _ = h.high; ring, ?_, ?_⟩
    · show _ ++ h.bins = _
      rw [hC.bins, tally_growDown _ _ (by omega), List.map_map]
      refine map_congr_tally (f := fun u => M - h.n + key h.low h.width h.n u) fun u hu => ?_
      obtain ⟨i1, i2⟩ := hC.inside u hu
      have k1 := key_inRange hC.n hw i1 (by rw [hs]; exact i2)
      have k2 := key_inRange (low := h.high - M * h.width) (n := M) (by omega) hw (v := u) (by linarith) (by linarith)
      have e : (u - (h.high - M * h.width)) / h.width = (u - h.low) / h.width + ((M - h.n : Nat) : Int) := by
        rw [← hs]
        have : ((M - h.n : Nat) : Rat) = M - h.n := by rw [Nat.cast_sub (by omega)]
        push_cast
        rw [this]
        field_simp
        ring
      rw [e, Int.floor_add_intCast, ← k1] at k2
      show M - h.n + key h.low h.width h.n u = key (h.high - M * h.width) h.width M u
      omega
    · intro u hu
      obtain ⟨i1, i2⟩ := hC.inside u hu
      exact ⟨by show h.high - _ ≤ u; linarith, i2⟩
  · have hge : (h.n : Rat) * h.width ≤ (M : Rat) * h.width :=
      mul_le_mul_of_nonneg_right (by exact_mod_cast (by omega : h.n ≤ M)) (le_of_lt hw)
    have hge2 : ((f + 1 : Nat) : Rat) * h.width ≤ (M : Rat) * h.width :=
      mul_le_mul_of_nonneg_right (by exact_mod_cast (by omega : f + 1 ≤ M)) (le_of_lt hw)
    rw [hfe] at hb
    push_cast at hb hge2
    refine ⟨rfl, rfl, rfl, ?_, le_refl _, ?_, ?_⟩
    · show h.high - _ ≤ h.low; linarith
    · show h.high - _ ≤ v; linarith [hb.2]
    · show v < h.high; linarith
  · show M = _
    rw [hfe]; simp only [Int.toNat_natCast]; omega

end Verif.Histo
