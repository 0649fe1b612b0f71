import Verif.LogHisto.Spec
import Verif.Histo.Lemmas

/-! # Lemmas about logarithmic histograms -/

namespace Verif.LogHisto

open Verif Histo

/-! ## Bins -/

/-- The bin for a value. -/
noncomputable def key (c s : ℝ) (n : Nat) (v : ℝ) : Nat := by
  classical exact if v ≤ s then 0 else min (n - 1) ⌊c * Real.log (v / s)⌋.toNat

theorem key_lt {c s : ℝ} {n : Nat} (hn : 0 < n) (v : ℝ) : key c s n v < n := by
  unfold key
  split <;> omega

/-- The edges are those of the model. -/
theorem edge_eq {low high c : ℝ} {n : Nat} (hl : 0 < low) (hh : low < high) (hn : 0 < n) (hc : 0 < c) (hs : (n : ℝ) / c = Real.log (high / low)) (i : Nat) :
    edge low high n i = low * Real.exp (i / c) := by
  unfold edge
  rw [Real.rpow_def_of_pos (div_pos (lt_trans hl hh) hl), ← hs]
  congr 2
  have : (n : ℝ) ≠ 0 := by exact_mod_cast (Nat.ne_of_gt hn)
  field_simp

theorem edge_le_iff {low c v : ℝ} (hl : 0 < low) (hc : 0 < c) (hv : 0 < v) (i : ℝ) : low * Real.exp (i / c) ≤ v ↔ i ≤ c * Real.log (v / low) := by
  rw [mul_comm, ← le_div_iff₀ hl, ← Real.le_log_iff_exp_le (div_pos hv hl), div_le_iff₀ hc, mul_comm c]

theorem key_iff {low high c : ℝ} {n i : Nat} (hl : 0 < low) (hh : low < high) (hc : 0 < c) (hs : (n : ℝ) / c = Real.log (high / low)) (hi : i < n) (v : ℝ) :
    key c low n v = i ↔ inBin low high n i v := by
  unfold key inBin
  rw [edge_eq hl hh (by omega) hc hs, edge_eq hl hh (by omega) hc hs]
  split
  · rename_i hv
    have e1 : v < low * Real.exp (((i + 1 : Nat) : ℝ) / c) := by
      have : 1 < Real.exp (((i + 1 : Nat) : ℝ) / c) := Real.one_lt_exp_iff.2 (div_pos (by exact_mod_cast Nat.succ_pos i) hc)
      nlinarith
    have e2 : 0 < i → ¬low * Real.exp ((i : ℝ) / c) ≤ v := by
      intro hi0
      have : 1 < Real.exp ((i : ℝ) / c) := Real.one_lt_exp_iff.2 (div_pos (by exact_mod_cast hi0) hc)
      nlinarith
    constructor
    · intro h
      exact ⟨Or.inl h.symm, Or.inr e1⟩
    · rintro ⟨h1, -⟩
      rcases h1 with h1 | h1
      · exact h1.symm
      · by_contra hne
        exact e2 (by omega) h1
  · rename_i hv
    have hv := not_le.1 hv
    have hv0 : 0 < v := lt_trans hl hv
    have h1 := edge_le_iff hl hc hv0 (i : ℝ)
    have h2 := edge_le_iff hl hc hv0 ((i + 1 : Nat) : ℝ)
    rw [← not_le, h1, h2]
    have g1 : (i : ℝ) ≤ c * Real.log (v / low) ↔ (i : Int) ≤ ⌊c * Real.log (v / low)⌋ := by rw [Int.le_floor]; push_cast; rfl
    have g2 : ((i + 1 : Nat) : ℝ) ≤ c * Real.log (v / low) ↔ ((i + 1 : Nat) : Int) ≤ ⌊c * Real.log (v / low)⌋ := by rw [Int.le_floor]; push_cast; rfl
    have g3 : 0 ≤ ⌊c * Real.log (v / low)⌋ := Int.floor_nonneg.2 (mul_nonneg hc.le (Real.log_nonneg (by rw [le_div_iff₀ hl]; linarith)))
    rw [g1, g2]
    omega

/-- Within the range the bin is the rounded logarithm. -/
theorem key_inRange {low high c v : ℝ} {n : Nat} (hl : 0 < low) (hc : 0 < c) (hs : (n : ℝ) / c = Real.log (high / low)) (h1 : low ≤ v) (h2 : v < high) :
    (key c low n v : Int) = ⌊c * Real.log (v / low)⌋ := by
  have hv : 0 < v := lt_of_lt_of_le hl h1
  have g0 : 0 ≤ Real.log (v / low) := Real.log_nonneg (by rw [le_div_iff₀ hl]; linarith)
  have g3 : 0 ≤ ⌊c * Real.log (v / low)⌋ := Int.floor_nonneg.2 (mul_nonneg hc.le g0)
  have g4 : ⌊c * Real.log (v / low)⌋ < n := by
    rw [Int.floor_lt]
    have : Real.log (v / low) < Real.log (high / low) := Real.log_lt_log (div_pos hv hl) (div_lt_div_of_pos_right h2 hl)
    rw [← hs, lt_div_iff₀ hc] at this
    push_cast
    linarith
  unfold key
  split
  · rename_i h
    have : v = low := le_antisymm h h1
    rw [this, div_self hl.ne', Real.log_one]
    simp
  · omega

theorem floor_half (x : ℝ) : ⌊x / 2⌋ = ⌊x⌋ / 2 := by
  have := Int.floor_div_natCast x 2
  simpa using this

/-! ## The invariant -/

/-- The shape of a histogram, in exact arithmetic. -/
structure Shape (h : L) : Prop where
  n : 0 < h.n
  even : ∃ m, h.n = 2 * m
  sc : 0 < h.scaling
  sm : 0 < h.small
  hi : h.small < h.high
  span : (h.n : ℝ) / h.scaling = Real.log (h.high / h.small)

/-- What holds of a histogram with the values `vs` in it. -/
structure Core (h : L) (vs : List ℝ) : Prop extends Shape h where
  bins : h.bins = tally h.n (vs.map fun v => (key h.scaling h.small h.n v, 1))

theorem map_congr_tally {n : Nat} {vs : List ℝ} {f g : ℝ → Nat} (h : ∀ v ∈ vs, f v = g v) :
    tally n (vs.map fun v => (f v, (1 : Nat))) = tally n (vs.map fun v => (g v, 1)) := by
  congr 1
  exact List.map_congr_left fun v hv => by rw [h v hv]

theorem Shape.exp {h : L} (hC : Shape h) : h.small * Real.exp (h.n / h.scaling) = h.high := by
  rw [hC.span, Real.exp_log (div_pos (lt_trans hC.sm hC.hi) hC.sm)]
  have := hC.sm.ne'
  field_simp

theorem Shape.double {h : L} (_ : Shape h) : (h.n : ℝ) / (h.scaling / 2) = 2 * (h.n / h.scaling) := by
  field_simp

theorem Shape.width {h : L} (hC : Shape h) : 0 < (h.n : ℝ) / h.scaling := div_pos (by exact_mod_cast hC.n) hC.sc

/-- The new lower end. -/
theorem Shape.down_log {h : L} (hC : Shape h) : Real.log (h.high / Real.exp (h.n / (h.scaling / 2))) = Real.log h.small - h.n / h.scaling := by
  have hh : 0 < h.high := lt_trans hC.sm hC.hi
  rw [Real.log_div hh.ne' (Real.exp_pos _).ne', Real.log_exp, hC.double, hC.span, Real.log_div hh.ne' hC.sm.ne']
  ring

/-- The new upper end. -/
theorem Shape.up_log {h : L} (hC : Shape h) : Real.log (h.small * Real.exp (h.n / (h.scaling / 2))) = Real.log h.high + h.n / h.scaling := by
  have hh : 0 < h.high := lt_trans hC.sm hC.hi
  rw [Real.log_mul hC.sm.ne' (Real.exp_pos _).ne', Real.log_exp, hC.double, hC.span, Real.log_div hh.ne' hC.sm.ne']
  ring

theorem Shape.log_high {h : L} (hC : Shape h) : Real.log h.high = Real.log h.small + h.n / h.scaling := by
  have hh : 0 < h.high := lt_trans hC.sm hC.hi
  rw [hC.span, Real.log_div hh.ne' hC.sm.ne']
  ring

/-- The histogram after a round of the first loop. -/
noncomputable def down (h : L) (b : List Nat) : L := { h with scaling := h.scaling / 2, small := h.high / Real.exp (h.n / (h.scaling / 2)), bins := b }

/-- The histogram after a round of the second loop. -/
noncomputable def up (h : L) (b : List Nat) : L := { h with scaling := h.scaling / 2, high := h.small * Real.exp (h.n / (h.scaling / 2)), bins := b }

theorem Shape.down_lt {h : L} (hC : Shape h) (b : List Nat) : (down h b).small < h.small := by
  have h1 : 0 < (down h b).small := div_pos (lt_trans hC.sm hC.hi) (Real.exp_pos _)
  rw [← Real.log_lt_log_iff h1 hC.sm]
  show Real.log (h.high / Real.exp (h.n / (h.scaling / 2))) < _
  rw [hC.down_log]
  linarith [hC.width]

theorem Shape.up_lt {h : L} (hC : Shape h) (b : List Nat) : h.high < (up h b).high := by
  have hh : 0 < h.high := lt_trans hC.sm hC.hi
  have h1 : 0 < (up h b).high := mul_pos hC.sm (Real.exp_pos _)
  rw [← Real.log_lt_log_iff hh h1]
  show _ < Real.log (h.small * Real.exp (h.n / (h.scaling / 2)))
  rw [hC.up_log]
  linarith [hC.width]

theorem Shape.down {h : L} (hC : Shape h) (b : List Nat) : Shape (down h b) := by
  have hh : 0 < h.high := lt_trans hC.sm hC.hi
  have h1 : 0 < (LogHisto.down h b).small := div_pos hh (Real.exp_pos _)
  refine ⟨hC.n, hC.even, half_pos hC.sc, h1, lt_trans (hC.down_lt b) hC.hi, ?_⟩
  show (h.n : ℝ) / (h.scaling / 2) = Real.log (h.high / (h.high / Real.exp (h.n / (h.scaling / 2))))
  rw [Real.log_div hh.ne' (show h.high / Real.exp (h.n / (h.scaling / 2)) ≠ 0 from h1.ne'), hC.down_log, hC.log_high, hC.double]
  ring

theorem Shape.up {h : L} (hC : Shape h) (b : List Nat) : Shape (up h b) := by
  have hh : 0 < h.high := lt_trans hC.sm hC.hi
  have h1 : 0 < (LogHisto.up h b).high := mul_pos hC.sm (Real.exp_pos _)
  refine ⟨hC.n, hC.even, half_pos hC.sc, hC.sm, lt_trans hC.hi (hC.up_lt b), ?_⟩
  show (h.n : ℝ) / (h.scaling / 2) = Real.log ((h.small * Real.exp (h.n / (h.scaling / 2))) / h.small)
  rw [Real.log_div (show h.small * Real.exp (h.n / (h.scaling / 2)) ≠ 0 from h1.ne') hC.sm.ne', hC.up_log, hC.log_high, hC.double]
  ring

theorem scaleDown_step {h : L} {vs : List ℝ} (hC : Core h vs) (hin : ∀ v ∈ vs, h.small ≤ v ∧ v < h.high) :
    ∃ b, halveDown (· + ·) 0 h.n h.bins = .ok b ∧ Core (down h b) vs := by
  obtain ⟨half, he⟩ := hC.even
  have hn := hC.n
  refine ⟨_, by rw [hC.bins, he]; exact halveDown_ok half _ (fun x hx => by
    obtain ⟨u, _, rfl⟩ := List.mem_map.1 hx
    exact key_lt (c := h.scaling) (s := h.small) (show 0 < 2 * half by omega) u), hC.toShape.down _, ?_⟩
  show tally (2 * half) _ = tally h.n _
  have hS := hC.toShape.down []
  have hsm := hC.toShape.down_lt []
  have hss : 0 < (down h []).small := hS.sm
  have hsp := hS.span
  have hsc : 0 < h.scaling / 2 := hS.sc
  rw [List.map_map, he]
  refine map_congr_tally (f := fun u => half + key h.scaling h.small (2 * half) u / 2) fun u hu => ?_
  obtain ⟨i1, i2⟩ := hin u hu
  have hu0 : 0 < u := lt_of_lt_of_le hC.sm i1
  have hspan := hC.span
  rw [he] at hspan
  have k1 := key_inRange (n := 2 * half) hC.sm hC.sc hspan i1 i2
  have k2 := key_inRange (low := (down h []).small) (high := h.high) (c := h.scaling / 2) (n := 2 * half) hss hsc
    (by rw [← he]; exact hsp) (v := u) (by linarith) i2
  have e : h.scaling / 2 * Real.log (u / (down h []).small) = h.scaling * Real.log (u / h.small) / 2 + ((half : Nat) : Int) := by
    rw [Real.log_div hu0.ne' hss.ne', Real.log_div hu0.ne' hC.sm.ne']
    show h.scaling / 2 * (Real.log u - Real.log (h.high / Real.exp (h.n / (h.scaling / 2)))) = _
    rw [hC.toShape.down_log, he]
    have := hC.sc.ne'
    push_cast
    field_simp
    ring
  rw [e, Int.floor_add_intCast, floor_half, ← k1] at k2
  show half + key h.scaling h.small (2 * half) u / 2 = key (h.scaling / 2) (down h []).small h.n u
  rw [he]
  omega

theorem scaleUp_step {h : L} {vs : List ℝ} (hC : Core h vs) (hin : ∀ v ∈ vs, h.small ≤ v ∧ v < h.high) :
    ∃ b, halveUp (· + ·) 0 h.n h.bins = .ok b ∧ Core (up h b) vs := by
  obtain ⟨half, he⟩ := hC.even
  have hn := hC.n
  refine ⟨_, by rw [hC.bins, he]; exact halveUp_ok half _ (fun x hx => by
    obtain ⟨u, _, rfl⟩ := List.mem_map.1 hx
    exact key_lt (c := h.scaling) (s := h.small) (show 0 < 2 * half by omega) u), hC.toShape.up _, ?_⟩
  show tally (2 * half) _ = tally h.n _
  have hS := hC.toShape.up []
  have hsm := hC.toShape.up_lt []
  have hsp := hS.span
  have hsc : 0 < h.scaling / 2 := hS.sc
  rw [List.map_map, he]
  refine map_congr_tally (f := fun u => key h.scaling h.small (2 * half) u / 2) fun u hu => ?_
  obtain ⟨i1, i2⟩ := hin u hu
  have hspan := hC.span
  rw [he] at hspan
  have k1 := key_inRange (n := 2 * half) hC.sm hC.sc hspan i1 i2
  have k2 := key_inRange (low := h.small) (high := (up h []).high) (c := h.scaling / 2) (n := 2 * half) hC.sm hsc
    (by rw [← he]; exact hsp) (v := u) i1 (by linarith)
  have e : h.scaling / 2 * Real.log (u / h.small) = h.scaling * Real.log (u / h.small) / 2 := by ring
  rw [e, floor_half, ← k1] at k2
  show key h.scaling h.small (2 * half) u / 2 = key (h.scaling / 2) h.small h.n u
  rw [he]
  omega

/-- The fields that scaling leaves alone, and how the range changes. -/
structure Kept (h h' : L) : Prop where
  scal : h'.scal = h.scal
  count : h'.count = h.count
  n : h'.n = h.n
  small : h'.small ≤ h.small
  high : h.high ≤ h'.high

theorem Kept.refl (h : L) : Kept h h := ⟨rfl, rfl, rfl, le_refl _, le_refl _⟩

theorem Kept.trans {a b c : L} (h : Kept a b) (h' : Kept b c) : Kept a c :=
  ⟨h'.scal.trans h.scal, h'.count.trans h.count, h'.n.trans h.n, le_trans h'.small h.small, le_trans h.high h'.high⟩

theorem scaleDown_ok {vs : List ℝ} {v : ℝ} (hv0 : 0 < v) : ∀ (m : Nat) (h : L), Core h vs → (∀ v ∈ vs, h.small ≤ v ∧ v < h.high) →
    Real.log h.small - Real.log v ≤ m * (h.n / h.scaling) →
    ∃ h', (∀ m', m ≤ m' → scaleDown exact v m' h = .ok h') ∧ Core h' vs ∧ Kept h h' ∧ h'.small ≤ v ∧ h'.high = h.high
  | 0, h, hC, _, hm => by
    have : h.small ≤ v := by
      rw [← Real.log_le_log_iff hC.sm hv0]
      simp at hm; linarith
    refine ⟨h, fun m' _ => ?_, hC, Kept.refl h, this, rfl⟩
    cases m' <;> rw [scaleDown, if_neg (not_lt.2 this)]
  | m + 1, h, hC, hin, hm => by
    by_cases hv : v < h.small
    · obtain ⟨b, e, hC'⟩ := scaleDown_step hC hin
      have hlt := hC.toShape.down_lt b
      obtain ⟨h', e', g1, g2, g3, g4⟩ := scaleDown_ok hv0 m (down h b) hC' (fun u hu => ⟨le_trans hlt.le (hin u hu).1, (hin u hu).2⟩) (by
        show Real.log (h.high / Real.exp (h.n / (h.scaling / 2))) - Real.log v ≤ m * ((h.n : ℝ) / (h.scaling / 2))
        rw [hC.toShape.down_log, hC.toShape.double]
        have : (0 : ℝ) ≤ m * (h.n / h.scaling) := mul_nonneg (Nat.cast_nonneg _) hC.toShape.width.le
        push_cast at hm
        linarith)
      refine ⟨h', fun m' hm' => ?_, g1, ⟨g2.scal, g2.count, g2.n, le_trans g2.small hlt.le, g2.high⟩, g3, g4⟩
      obtain ⟨k, rfl⟩ : ∃ k, m' = k + 1 := ⟨m' - 1, by omega⟩
      rw [scaleDown, if_pos hv, e, Res.bind_ok]
      exact e' k (by omega)
    · refine ⟨h, fun m' _ => ?_, hC, Kept.refl h, not_lt.1 hv, rfl⟩
      cases m' <;> rw [scaleDown, if_neg hv]

theorem scaleUp_ok {vs : List ℝ} {v : ℝ} (hv0 : 0 < v) : ∀ (m : Nat) (h : L), Core h vs → (∀ v ∈ vs, h.small ≤ v ∧ v < h.high) →
    Real.log v - Real.log h.high < m * (h.n / h.scaling) →
    ∃ h', (∀ m', m ≤ m' → scaleUp exact v m' h = .ok h') ∧ Core h' vs ∧ Kept h h' ∧ v < h'.high ∧ h'.small = h.small
  | 0, h, hC, _, hm => by
    have : v < h.high := by
      rw [← Real.log_lt_log_iff hv0 (lt_trans hC.sm hC.hi)]
      simp at hm; linarith
    refine ⟨h, fun m' _ => ?_, hC, Kept.refl h, this, rfl⟩
    cases m' <;> rw [scaleUp, if_neg (not_le.2 this)]
  | m + 1, h, hC, hin, hm => by
    by_cases hv : h.high ≤ v
    · obtain ⟨b, e, hC'⟩ := scaleUp_step hC hin
      have hlt := hC.toShape.up_lt b
      obtain ⟨h', e', g1, g2, g3, g4⟩ := scaleUp_ok hv0 m (up h b) hC' (fun u hu => ⟨(hin u hu).1, lt_trans (hin u hu).2 hlt⟩) (by
        show Real.log v - Real.log (h.small * Real.exp (h.n / (h.scaling / 2))) < m * ((h.n : ℝ) / (h.scaling / 2))
        rw [hC.toShape.up_log, hC.toShape.double]
        have : (0 : ℝ) ≤ m * (h.n / h.scaling) := mul_nonneg (Nat.cast_nonneg _) hC.toShape.width.le
        push_cast at hm
        linarith)
      refine ⟨h', fun m' hm' => ?_, g1, ⟨g2.scal, g2.count, g2.n, g2.small, le_trans hlt.le g2.high⟩, g3, g4⟩
      obtain ⟨k, rfl⟩ : ∃ k, m' = k + 1 := ⟨m' - 1, by omega⟩
      rw [scaleUp, if_pos hv, e, Res.bind_ok]
      exact e' k (by omega)
    · refine ⟨h, fun m' _ => ?_, hC, Kept.refl h, not_le.1 hv, rfl⟩
      cases m' <;> rw [scaleUp, if_neg hv]

/-- There are rounds enough. -/
theorem rounds {w : ℝ} (hw : 0 < w) (x : ℝ) : ∃ m : Nat, x < m * w := by
  obtain ⟨m, hm⟩ := exists_nat_gt (x / w)
  exact ⟨m, by rwa [div_lt_iff₀ hw] at hm⟩

theorem addScale_ok {h : L} {vs : List ℝ} (hC : Core h vs) (hin : ∀ v ∈ vs, h.small ≤ v ∧ v < h.high) (hsc : h.scal = true) {v : ℝ} (hv0 : 0 < v) :
    ∃ m0 h', (∀ m, m0 ≤ m → addScale exact m h v = .ok h') ∧ Core h' vs ∧ Kept h h' ∧ h'.small ≤ v ∧ v < h'.high ∧ (h.small ≤ v → v < h.high → h' = h) := by
  by_cases hv : v < h.small ∨ h.high ≤ v
  · obtain ⟨m1, hm1⟩ := rounds hC.toShape.width (Real.log h.small - Real.log v)
    obtain ⟨h1, e1, c1, k1, l1, g1⟩ := scaleDown_ok hv0 m1 { h with rescales := h.rescales + 1 } ⟨⟨hC.n, hC.even, hC.sc, hC.sm, hC.hi, hC.span⟩, hC.bins⟩ hin hm1.le
    have hs1 : h1.small ≤ h.small := k1.small
    have hh1 : h1.high = h.high := g1
    obtain ⟨m2, hm2⟩ := rounds c1.toShape.width (Real.log v - Real.log h1.high)
    obtain ⟨h2, e2, c2, k2, l2, g2⟩ := scaleUp_ok hv0 m2 h1 c1 (fun u hu => ⟨le_trans hs1 (hin u hu).1, by rw [hh1]; exact (hin u hu).2⟩) hm2
    refine ⟨max m1 m2, h2, fun m hm => ?_, c2, Kept.trans ⟨k1.scal, k1.count, k1.n, k1.small, k1.high⟩ k2, by rw [g2]; exact l1, l2, fun q1 q2 => ?_⟩
    · unfold addScale
      rw [if_pos ⟨hsc, hv⟩, e1 m (le_trans (le_max_left _ _) hm), Res.bind_ok, e2 m (le_trans (le_max_right _ _) hm)]
    · rcases hv with hv | hv
      · exact absurd q1 (not_le.2 hv)
      · exact absurd q2 (not_lt.2 hv)
  · have hv' := hv
    push Not at hv'
    refine ⟨0, h, fun m _ => ?_, hC, Kept.refl h, hv'.1, hv'.2, fun _ _ => rfl⟩
    unfold addScale
    rw [if_neg (fun h => hv h.2)]

/-! ## Counting a value -/

theorem sampleBin_ok {h : L} (hS : Shape h) (hn : h.n < 2 ^ 32) {v : ℝ} (hv : Near h.small h.high h.n v ∨ v < h.high) :
    sampleBin exact h v = .ok (key h.scaling h.small h.n v) := by
  unfold sampleBin
  by_cases hs : v ≤ h.small
  · rw [if_pos hs]
    unfold key
    rw [if_pos hs]
  · rw [if_neg hs]
    have hk : key h.scaling h.small h.n v = min (h.n - 1) ⌊h.scaling * Real.log (v / h.small)⌋.toNat := by
      unfold key
      rw [if_neg hs]
    rw [hk]
    have hs := not_le.1 hs
    have hv0 : 0 < v := lt_trans hS.sm hs
    show (do
      let b ← toU32 (h.scaling * Real.log (v / h.small))
      if h.n ≤ b then pure (h.n - 1) else pure b) = _
    have hnear : h.scaling * Real.log (v / h.small) < 2 ^ 32 := by
      have hnq : (0 : ℝ) < h.n := by exact_mod_cast hS.n
      rcases hv with hv | hv
      · unfold Near at hv
        rw [← hS.span] at hv
        have e : (2 : ℝ) ^ 32 * (h.n / h.scaling) = h.n * (2 ^ 32 / h.scaling) := by ring
        rw [e] at hv
        have := lt_of_mul_lt_mul_left hv hnq.le
        rw [lt_div_iff₀ hS.sc] at this
        linarith
      · have : Real.log (v / h.small) < Real.log (h.high / h.small) := Real.log_lt_log (div_pos hv0 hS.sm) (div_lt_div_of_pos_right hv hS.sm)
        rw [← hS.span, lt_div_iff₀ hS.sc] at this
        have hn' : (h.n : ℝ) < 2 ^ 32 := by exact_mod_cast hn
        linarith
    have g3 : 0 ≤ ⌊h.scaling * Real.log (v / h.small)⌋ := Int.floor_nonneg.2 (mul_nonneg hS.sc.le (Real.log_nonneg (by rw [le_div_iff₀ hS.sm]; linarith)))
    have g4 : ⌊h.scaling * Real.log (v / h.small)⌋ < 2 ^ 32 := by
      rw [Int.floor_lt]; exact_mod_cast hnear
    unfold toU32
    rw [if_pos ⟨g3, g4⟩, Res.bind_ok]
    have := hS.n
    split <;> (show Res.ok _ = _; congr 1; omega)

theorem set_tally {α : Type} [AddCommMonoid α] {n : Nat} {b : List α} {ks : List (Nat × α)} (hb : b = tally n ks) {k : Nat} (hk : k < n) (x : α) :
    b.set k (PQ.g 0 b k + x) = tally n (ks ++ [(k, x)]) := by
  have hl : b.length = n := by rw [hb]; simp
  refine eq_tally (by simpa using hl) fun i hi => ?_
  rw [get_set _ _ _ _ (by omega), at_append]
  simp only [at_cons, at_nil, add_zero]
  have hbi : b[i]? = some (at' i ks) := by rw [hb]; exact tally_get _ hi
  split
  · rename_i hki
    subst hki
    unfold PQ.g
    rw [List.getD_eq_getElem?_getD, hbi]; rfl
  · rw [hbi, add_zero]

theorem bump_ok {h : L} {vs : List ℝ} (hC : Core h vs) (hn : h.n < 2 ^ 32) {v : ℝ} (hv : Near h.small h.high h.n v ∨ v < h.high) :
    ∃ b, bump exact h v = .ok (key h.scaling h.small h.n v, { h with bins := b }) ∧ Core { h with bins := b } (vs ++ [v]) := by
  have hk := key_lt (c := h.scaling) (s := h.small) hC.n v
  have hl : h.bins.length = h.n := by rw [hC.bins]; simp
  refine ⟨h.bins.set (key h.scaling h.small h.n v) (PQ.g 0 h.bins (key h.scaling h.small h.n v) + 1), ?_, ⟨hC.n, hC.even, hC.sc, hC.sm, hC.hi, hC.span⟩, ?_⟩
  · unfold bump
    rw [sampleBin_ok hC.toShape hn hv, Res.bind_ok, PQ.rd_eq 0 _ _ (by omega), Res.bind_ok, PQ.wr_eq _ _ _ (by omega)]
    rfl
  · show h.bins.set _ _ = _
    rw [set_tally hC.bins hk, List.map_append]
    rfl

/-! ## Histories -/

/-- What holds of a histogram after some calls. -/
structure Inv (h : L) (vs : List ℝ) : Prop extends Core h vs where
  count : h.count = vs.length
  inside : h.scal = true → ∀ v ∈ vs, h.small ≤ v ∧ v < h.high

theorem add_ok {h : L} {vs : List ℝ} (hI : Inv h vs) (hn : h.n < 2 ^ 32) {v : ℝ} (hv0 : 0 < v) (hnear : h.scal = false → Near h.small h.high h.n v) :
    ∃ m0 h', (∀ m, m0 ≤ m → add exact m h v = .ok h') ∧ Inv h' (vs ++ [v]) ∧ h'.n = h.n ∧ h'.scal = h.scal ∧ h'.small ≤ h.small ∧ h.high ≤ h'.high ∧
      (h.scal = false ∨ h.small ≤ v ∧ v < h.high → h'.small = h.small ∧ h'.high = h.high) := by
  have hC : Core { h with count := h.count + 1 } vs := ⟨⟨hI.n, hI.even, hI.sc, hI.sm, hI.hi, hI.span⟩, hI.bins⟩
  by_cases hs : h.scal = true
  · obtain ⟨m0, h1, e1, c1, k1, l1, l2, l3⟩ := addScale_ok hC (hI.inside hs) hs hv0
    have hn1 : h1.n = h.n := k1.n
    obtain ⟨b, e2, c2⟩ := bump_ok c1 (by rw [hn1]; exact hn) (Or.inr l2)
    refine ⟨m0, { h1 with bins := b }, fun m hm => ?_, ⟨c2, ?_, fun _ u hu => ?_⟩, hn1, k1.scal, k1.small, k1.high, fun hf => ?_⟩
    · unfold add
      rw [decide_eq_true hv0, Res.require_true, Res.bind_ok, e1 m hm, Res.bind_ok, e2, Res.bind_ok]
      rfl
    · show h1.count = _
      rw [k1.count]
      simp [hI.count]
    · rcases List.mem_append.1 hu with hu | hu
      · obtain ⟨i1, i2⟩ := hI.inside hs u hu
        exact ⟨le_trans k1.small i1, lt_of_lt_of_le i2 k1.high⟩
      · rw [List.mem_singleton.1 hu]; exact ⟨l1, l2⟩
    · rcases hf with hf | hf
      · rw [hs] at hf; cases hf
      · rw [l3 hf.1 hf.2]; exact ⟨rfl, rfl⟩
  · have hs' : h.scal = false := by simpa using hs
    obtain ⟨b, e2, c2⟩ := bump_ok hC hn (Or.inl (hnear hs'))
    refine ⟨0, { h with count := h.count + 1, bins := b }, fun m _ => ?_, ⟨c2, ?_, fun h' => absurd h' hs⟩, rfl, rfl, le_refl _, le_refl _, fun _ => ⟨rfl, rfl⟩⟩
    · unfold add addScale
      rw [decide_eq_true hv0, Res.require_true, Res.bind_ok, if_neg (fun h' => hs h'.1), Res.bind_ok, e2, Res.bind_ok]
      rfl
    · show h.count + 1 = _
      simp [hI.count]

theorem reset_ok {h : L} (hS : Shape h) : Inv (reset h) [] :=
  ⟨⟨⟨hS.n, hS.even, hS.sc, hS.sm, hS.hi, hS.span⟩, by show List.replicate h.n 0 = _; rw [List.map_nil, tally_nil]; rfl⟩, rfl, fun _ v hv => by cases hv⟩

theorem new_ok {b : Nat} (hb : 0 < b) (hb' : b < 2 ^ 32 - 1) {small high : ℝ} (hs : 0 < small) (hh : small < high) (scal : Bool) :
    ∃ h0, new exact b small high scal = .ok h0 ∧ Inv h0 [] ∧ h0.n = 2 * ((b + 1) / 2) ∧ h0.small = small ∧ h0.high = high ∧ h0.scal = scal := by
  have hm : 2 * ((b + 1) / 2) % 2 ^ 32 = 2 * ((b + 1) / 2) := Nat.mod_eq_of_lt (by omega)
  have hlog : 0 < Real.log (high / small) := Real.log_pos (by rw [one_lt_div hs]; exact hh)
  refine ⟨_, by
    unfold new
    rw [decide_eq_true hb, Res.require_true, Res.bind_ok, decide_eq_true hs, Res.require_true, Res.bind_ok, decide_eq_true hh.le, Res.require_true, Res.bind_ok,
      if_neg hh.ne, hm]
    rfl, reset_ok ⟨by show 0 < 2 * ((b + 1) / 2); omega, ⟨_, rfl⟩, ?_, hs, hh, ?_⟩, rfl, rfl, rfl, rfl⟩
  · show 0 < ((2 * ((b + 1) / 2) : Nat) : ℝ) / Real.log (high / small)
    exact div_pos (by exact_mod_cast (by omega : 0 < 2 * ((b + 1) / 2))) hlog
  · show ((2 * ((b + 1) / 2) : Nat) : ℝ) / (((2 * ((b + 1) / 2) : Nat) : ℝ) / Real.log (high / small)) = Real.log (high / small)
    have : ((2 * ((b + 1) / 2) : Nat) : ℝ) ≠ 0 := by
      have : 2 * ((b + 1) / 2) ≠ 0 := by omega
      exact_mod_cast this
    field_simp

theorem vals_snoc (ops : List Op) (o : Op) : vals (ops ++ [o]) = match o with | .add v => vals ops ++ [v] | .add2 i _ => vals ops ++ [i] | .reset => [] := by
  unfold vals
  rw [List.foldl_append]
  cases o <;> rfl

theorem run_snoc (A : Ar) (m : Nat) (h : L) (ops : List Op) (o : Op) : run A m h (ops ++ [o]) = (run A m h ops >>= fun h => step A m h o) := by
  induction ops generalizing h with
  | nil =>
    show (step A m h o >>= fun h => Res.ok h) = step A m h o
    cases step A m h o <;> rfl
  | cons x xs ih =>
    show (step A m h x >>= fun h => run A m h (xs ++ [o])) = _
    show _ = ((step A m h x >>= fun h => run A m h xs) >>= fun h => step A m h o)
    cases step A m h x with
    | ok h' => exact ih h'
    | abort => rfl
    | ub => rfl

/-- How the range relates to the one at first. -/
structure Rng (h0 h : L) (ops : List Op) : Prop where
  n : h.n = h0.n
  scal : h.scal = h0.scal
  small : h.small ≤ h0.small
  high : h0.high ≤ h.high
  same : (h0.scal = false ∨ ∀ o ∈ ops, ∀ v ∈ given o, h0.small ≤ v ∧ v < h0.high) → h.small = h0.small ∧ h.high = h0.high

theorem run_ok {h0 : L} (hI : Inv h0 []) (hn : h0.n < 2 ^ 32) : ∀ ops : List Op, (∀ o ∈ ops, Legal o) →
    (h0.scal = false → ∀ o ∈ ops, ∀ v ∈ given o, Near h0.small h0.high h0.n v) →
    ∃ m0 h, (∀ m, m0 ≤ m → run exact m h0 ops = .ok h) ∧ Inv h (vals ops) ∧ Rng h0 h ops := by
  intro ops
  induction ops using List.reverseRecOn with
  | nil => exact fun _ _ => ⟨0, h0, fun _ _ => rfl, hI, rfl, rfl, le_refl _, le_refl _, fun _ => ⟨rfl, rfl⟩⟩
  | append_singleton ops o ih =>
    intro hl hnear
    obtain ⟨m0, h, e, hI', hR⟩ := ih (fun o ho => hl o (List.mem_append_left _ ho)) (fun hs o ho => hnear hs o (List.mem_append_left _ ho))
    have hlo := hl o (by simp)
    have key : ∀ v, 0 < v → given o = [v] → (∀ m, step exact m h o = add exact m h v) → vals (ops ++ [o]) = vals ops ++ [v] →
        ∃ m0 h, (∀ m, m0 ≤ m → run exact m h0 (ops ++ [o]) = .ok h) ∧ Inv h (vals (ops ++ [o])) ∧ Rng h0 h (ops ++ [o]) := by
      intro v hv hg hstep hvals
      obtain ⟨m1, h', e', hI'', n', s', l', g', q'⟩ := add_ok hI' (by rw [hR.n]; exact hn) hv (fun hs => by
        rw [hR.scal] at hs
        obtain ⟨a, c⟩ := hR.same (Or.inl hs)
        rw [a, c, hR.n]
        exact hnear hs o (by simp) v (by rw [hg]; simp))
      refine ⟨max m0 m1, h', fun m hm => ?_, by rw [hvals]; exact hI'', n'.trans hR.n, s'.trans hR.scal, le_trans l' hR.small, le_trans hR.high g', fun hq => ?_⟩
      · rw [run_snoc, e m (le_trans (le_max_left _ _) hm), Res.bind_ok, hstep, e' m (le_trans (le_max_right _ _) hm)]
      · obtain ⟨a, c⟩ := hR.same (hq.imp id fun hq o ho => hq o (List.mem_append_left _ ho))
        have := q' (by
          rcases hq with hq | hq
          · exact Or.inl (hR.scal.trans hq)
          · right
            rw [a, c]
            exact hq o (by simp) v (by rw [hg]; simp))
        rw [this.1, this.2]
        exact ⟨a, c⟩
    cases o with
    | add v => exact key v hlo rfl (fun _ => rfl) (vals_snoc ops (.add v))
    | add2 i d =>
      refine key i hlo.1 rfl (fun m => ?_) (vals_snoc ops (.add2 i d))
      show add2 exact m h i d = _
      unfold add2
      rw [decide_eq_true hlo.2, Res.require_true, Res.bind_ok]
    | reset =>
      refine ⟨m0, reset h, fun m hm => by rw [run_snoc, e m hm]; rfl, by rw [vals_snoc]; exact reset_ok hI'.toShape, hR.n, hR.scal, hR.small, hR.high, fun hq => ?_⟩
      exact hR.same (hq.imp id fun hq o ho => hq o (List.mem_append_left _ ho))

end Verif.LogHisto
