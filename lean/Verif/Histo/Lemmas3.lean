import Verif.Histo.Lemmas2

/-! # Scaling and adding, in exact arithmetic -/

namespace Verif.Histo

open Verif

theorem scaleDown_step {h : H} {vs : List Rat} (hC : Core h vs) {half : Nat} (he : h.n = 2 * half) :
    ∃ b, halveDown (· + ·) 0 h.n h.bins = .ok b ∧
      Core { h with low := h.low - (h.high - h.low), bins := b, width := h.width + h.width } vs := by
  have hw := hC.width
  have hs := hC.span
  have hn := hC.n
  have hpos : (0 : Rat) < h.n * h.width := mul_pos (by exact_mod_cast hC.n) hw
  refine ⟨_, by rw [hC.bins, he]; exact halveDown_ok half _ (fun x hx => by
    obtain ⟨u, _, rfl⟩ := List.mem_map.1 hx
    have := key_lt (low := h.low) (w := h.width) (show 0 < 2 * half by omega) u
    exact this), ?_⟩
  refine ⟨hC.n, by show 0 < h.width + h.width; linarith, by show h.low - (h.high - h.low) + h.n * (h.width + h.width) = h.high; linarith, ?_, ?_⟩
  · show tally (2 * half) _ = tally h.n _
    rw [he, List.map_map]
    refine map_congr_tally (f := fun u => half + key h.low h.width (2 * half) u / 2) fun u hu => ?_
    obtain ⟨i1, i2⟩ := hC.inside u hu
    rw [he] at hs hpos
    have k1 := key_inRange (n := 2 * half) (by omega) hw i1 (by rw [hs]; exact i2)
    have k2 := key_inRange (low := h.low - (h.high - h.low)) (w := h.width + h.width) (n := 2 * half) (by omega) (by linarith) (v := u) (by linarith) (by linarith)
    have e : (u - (h.low - (h.high - h.low))) / (h.width + h.width) = (u - h.low) / h.width / 2 + ((half : Nat) : Int) := by
      rw [← hs]
      push_cast
      field_simp
      ring
    rw [e, Int.floor_add_intCast, floor_half, ← k1] at k2
    show half + key h.low h.width (2 * half) u / 2 = key (h.low - (h.high - h.low)) (h.width + h.width) (2 * half) u
    omega
  · intro u hu
    obtain ⟨i1, i2⟩ := hC.inside u hu
    exact ⟨by show h.low - _ ≤ u; linarith, i2⟩

theorem scaleUp_step {h : H} {vs : List Rat} (hC : Core h vs) {half : Nat} (he : h.n = 2 * half) :
    ∃ b, halveUp (· + ·) 0 h.n h.bins = .ok b ∧
      Core { h with high := h.high + (h.high - h.low), bins := b, width := h.width + h.width } vs := by
  have hw := hC.width
  have hs := hC.span
  have hn := hC.n
  have hpos : (0 : Rat) < h.n * h.width := mul_pos (by exact_mod_cast hC.n) hw
  refine ⟨_, by rw [hC.bins, he]; exact halveUp_ok half _ (fun x hx => by
    obtain ⟨u, _, rfl⟩ := List.mem_map.1 hx
    have := key_lt (low := h.low) (w := h.width) (show 0 < 2 * half by omega) u
    exact this), ?_⟩
  refine ⟨hC.n, by show 0 < h.width + h.width; linarith, by show h.low + h.n * (h.width + h.width) = h.high + (h.high - h.low); linarith, ?_, ?_⟩
  · show tally (2 * half) _ = tally h.n _
    rw [he, List.map_map]
    refine map_congr_tally (f := fun u => key h.low h.width (2 * half) u / 2) fun u hu => ?_
    obtain ⟨i1, i2⟩ := hC.inside u hu
    rw [he] at hs hpos
    have k1 := key_inRange (n := 2 * half) (by omega) hw i1 (by rw [hs]; exact i2)
    have k2 := key_inRange (low := h.low) (w := h.width + h.width) (n := 2 * half) (by omega) (by linarith) (v := u) (by linarith) (by linarith)
    have e : (u - h.low) / (h.width + h.width) = (u - h.low) / h.width / 2 := by
      field_simp
      ring
    rw [e, floor_half, ← k1] at k2
    show key h.low h.width (2 * half) u / 2 = key h.low (h.width + h.width) (2 * half) u
    omega
  · intro u hu
    obtain ⟨i1, i2⟩ := hC.inside u hu
    exact ⟨i1, by show u < h.high + _; linarith⟩

/-- The fields that scaling leaves alone. -/
structure Kept (h h' : H) : Prop where
  scal : h'.scal = h.scal
  grow : h'.grow = h.grow
  st : h'.st = h.st
  n : h'.n = h.n
  low : h'.low ≤ h.low
  high : h.high ≤ h'.high

theorem Kept.refl (h : H) : Kept h h := ⟨rfl, rfl, rfl, rfl, le_refl _, le_refl _⟩

theorem Kept.trans {a b c : H} (h : Kept a b) (h' : Kept b c) : Kept a c :=
  ⟨h'.scal.trans h.scal, h'.grow.trans h.grow, h'.st.trans h.st, h'.n.trans h.n, le_trans h'.low h.low, le_trans h.high h'.high⟩

theorem Core.pos {h : H} {vs : List Rat} (hC : Core h vs) : h.low < h.high := by
  have : (0 : Rat) < h.n * h.width := mul_pos (by exact_mod_cast hC.n) hC.width
  linarith [hC.span]

theorem scaleDown_ok {vs : List Rat} {v : Rat} {half : Nat} : ∀ (m : Nat) (h : H), Core h vs → h.n = 2 * half → h.low - v ≤ m * (h.high - h.low) →
    ∃ h', scaleDown id v m h = .ok h' ∧ Core h' vs ∧ Kept h h' ∧ h'.low ≤ v ∧ h'.high = h.high
  | 0, h, hC, _, hm => by
    have : h.low ≤ v := by simpa using hm
    exact ⟨h, by rw [scaleDown, if_neg (not_lt.2 this)], hC, Kept.refl h, this, rfl⟩
  | m + 1, h, hC, he, hm => by
    by_cases hv : v < h.low
    · obtain ⟨b, e, hC'⟩ := scaleDown_step hC he
      have hp := hC.pos
      obtain ⟨h', e', g1, g2, g3, g4⟩ := scaleDown_ok m _ hC' he (by
        show h.low - (h.high - h.low) - v ≤ m * (h.high - (h.low - (h.high - h.low)))
        have : (0 : Rat) ≤ m * (h.high - h.low) := mul_nonneg (Nat.cast_nonneg _) (by linarith)
        push_cast at hm
        linarith)
      refine ⟨h', ?_, g1, ⟨g2.scal, g2.grow, g2.st, g2.n, le_trans g2.low (by show h.low - (h.high - h.low) ≤ h.low; linarith), g2.high⟩, g3, g4⟩
      rw [scaleDown, if_pos hv, e, Res.bind_ok]
      exact e'
    · exact ⟨h, by rw [scaleDown, if_neg hv], hC, Kept.refl h, not_lt.1 hv, rfl⟩

theorem scaleUp_ok {vs : List Rat} {v : Rat} {half : Nat} : ∀ (m : Nat) (h : H), Core h vs → h.n = 2 * half → v - h.high < m * (h.high - h.low) →
    ∃ h', scaleUp id v m h = .ok h' ∧ Core h' vs ∧ Kept h h' ∧ v < h'.high ∧ h'.low = h.low
  | 0, h, hC, _, hm => by
    have : v < h.high := by simpa using hm
    exact ⟨h, by rw [scaleUp, if_neg (not_le.2 this)], hC, Kept.refl h, this, rfl⟩
  | m + 1, h, hC, he, hm => by
    by_cases hv : h.high ≤ v
    · obtain ⟨b, e, hC'⟩ := scaleUp_step hC he
      have hp := hC.pos
      obtain ⟨h', e', g1, g2, g3, g4⟩ := scaleUp_ok m _ hC' he (by
        show v - (h.high + (h.high - h.low)) < m * (h.high + (h.high - h.low) - h.low)
        have : (0 : Rat) ≤ m * (h.high - h.low) := mul_nonneg (Nat.cast_nonneg _) (by linarith)
        push_cast at hm
        linarith)
      refine ⟨h', ?_, g1, ⟨g2.scal, g2.grow, g2.st, g2.n, g2.low, le_trans (by show h.high ≤ h.high + (h.high - h.low); linarith) g2.high⟩, g3, g4⟩
      rw [scaleUp, if_pos hv, e, Res.bind_ok]
      exact e'
    · exact ⟨h, by rw [scaleUp, if_neg hv], hC, Kept.refl h, not_le.1 hv, rfl⟩

/-- The loops end within `rounds`. -/
theorem scale_rounds {h : H} (hp : h.low < h.high) (v : Rat) : h.low - v < rounds h v * (h.high - h.low) ∧ v - h.high < rounds h v * (h.high - h.low) := by
  have hd : 0 < h.high - h.low := by linarith
  have h1 := Int.le_ceil ((|v - h.low| + |v - h.high|) / (h.high - h.low))
  rw [div_le_iff₀ hd] at h1
  have h2 : ((⌈(|v - h.low| + |v - h.high|) / (h.high - h.low)⌉ : Int) : Rat) ≤ (⌈(|v - h.low| + |v - h.high|) / (h.high - h.low)⌉.toNat : Rat) := by
    exact_mod_cast Int.self_le_toNat _
  have h3 := mul_le_mul_of_nonneg_right h2 (le_of_lt hd)
  have h4 : (rounds h v : Rat) * (h.high - h.low) = (⌈(|v - h.low| + |v - h.high|) / (h.high - h.low)⌉.toNat : Rat) * (h.high - h.low) + (h.high - h.low) := by
    unfold rounds; push_cast; ring
  have a1 := neg_abs_le (v - h.low)
  have a2 := le_abs_self (v - h.high)
  have a3 := abs_nonneg (v - h.low)
  have a4 := abs_nonneg (v - h.high)
  constructor <;> linarith

theorem addScale_ok {h : H} {vs : List Rat} (hC : Core h vs) {half : Nat} (he : h.n = 2 * half) (hsc : h.scal = true) (v : Rat) :
    ∃ h', addScale id h v = .ok h' ∧ Core h' vs ∧ Kept h h' ∧ h'.low ≤ v ∧ v < h'.high := by
  unfold addScale
  by_cases hv : v < h.low ∨ h.high ≤ v
  · rw [if_pos ⟨hsc, hv⟩]
    obtain ⟨r1, r2⟩ := scale_rounds hC.pos v
    obtain ⟨h1, e1, c1, k1, l1, g1⟩ := scaleDown_ok (v := v) (rounds h v) { h with rescales := h.rescales + 1 } ⟨hC.n, hC.width, hC.span, hC.bins, hC.inside⟩ he (le_of_lt r1)
    have hlow : h1.low ≤ h.low := k1.low
    have hhigh : h1.high = h.high := g1
    obtain ⟨h2, e2, c2, k2, l2, g2⟩ := scaleUp_ok (v := v) (rounds h v) h1 c1 (by rw [k1.n]; exact he) (by
      rw [hhigh]
      have : (rounds h v : Rat) * (h.high - h.low) ≤ rounds h v * (h.high - h1.low) := mul_le_mul_of_nonneg_left (by linarith) (Nat.cast_nonneg _)
      linarith)
    refine ⟨h2, by rw [e1, Res.bind_ok, e2], c2, Kept.trans ⟨k1.scal, k1.grow, k1.st, k1.n, k1.low, k1.high⟩ k2, ?_, l2⟩
    rw [g2]; exact l1
  · rw [if_neg (fun h => hv h.2)]
    push Not at hv
    exact ⟨h, rfl, hC, Kept.refl h, hv.1, hv.2⟩

theorem Inv.core {h : H} {vs : List Rat} (hI : Inv h vs) (hm : h.scal = true ∨ h.grow = true) : Core h vs :=
  ⟨hI.n, hI.width, hI.span, hI.bins, hI.inside hm⟩

/-- Counting the value, once there is room. -/
theorem count_ok {h : H} {vs : List Rat} (hI : Inv h vs) (hn : h.n < 2 ^ 32) (v : Rat) (st' : Stats.St) (hst : st' = Stats.eval id (Stats.adds .new (vs ++ [v])))
    (hin : h.scal = true ∨ h.grow = true → h.low ≤ v ∧ v < h.high) :
    ∃ b, (do
      let i ← sampleBin id { h with st := st' } v
      let x ← PQ.rd h.bins i
      let b ← PQ.wr h.bins i (x + 1)
      pure b) = .ok b ∧ Inv { h with bins := b, st := st' } (vs ++ [v]) := by
  have hs : sampleBin id { h with st := st' } v = .ok (key h.low h.width h.n v) := sampleBin_ok hI hn v
  have hk := key_lt (low := h.low) (w := h.width) hI.n v
  have hl : h.bins.length = h.n := by rw [hI.bins]; simp
  refine ⟨h.bins.set (key h.low h.width h.n v) (PQ.g 0 h.bins (key h.low h.width h.n v) + 1), ?_, ?_⟩
  · rw [hs, Res.bind_ok, PQ.rd_eq 0 _ _ (by omega), Res.bind_ok, PQ.wr_eq _ _ _ (by omega)]
  · refine ⟨hI.n, hI.width, hI.span, ?_, hst, ?_, hI.even, hI.one⟩
    · show h.bins.set _ _ = _
      refine eq_tally (by simpa using hl) fun i hi => ?_
      rw [get_set _ _ _ _ (by omega), List.map_append, at_append]
      simp only [List.map_cons, List.map_nil, at_cons, at_nil, add_zero]
      show (if _ then _ else _) = some (_ + if key h.low h.width h.n v = i then 1 else 0)
      have hb : h.bins[i]? = some (at' i (vs.map fun v => (key h.low h.width h.n v, 1))) := by rw [hI.bins]; exact tally_get _ hi
      split
      · rename_i hki
        rw [hki]
        unfold PQ.g
        rw [List.getD_eq_getElem?_getD, hb]; rfl
      · rw [hb]; rfl
    · intro hm u hu
      rcases List.mem_append.1 hu with hu | hu
      · exact hI.inside hm u hu
      · rw [List.mem_singleton.1 hu]; exact hin hm

theorem stats_snoc (vs : List Rat) (v : Rat) : Stats.add id (Stats.eval id (Stats.adds .new vs)) v = Stats.eval id (Stats.adds .new (vs ++ [v])) := by
  unfold Stats.adds
  rw [List.foldl_append]
  rfl

/-- `add` with the room made. -/
theorem add_count {h h' : H} {vs : List Rat} (v : Rat) (h1 : addGrow id { h with st := Stats.add id h.st v } v >>= (addScale id · v) = .ok h')
    (hst : h.st = Stats.eval id (Stats.adds .new vs)) (hI : Inv { h' with st := h.st } vs) (hn : h'.n < 2 ^ 32) (hst' : h'.st = Stats.add id h.st v)
    (hin : h'.scal = true ∨ h'.grow = true → h'.low ≤ v ∧ v < h'.high) :
    ∃ b, add id h v = .ok { h' with bins := b } ∧ Inv { h' with bins := b } (vs ++ [v]) := by
  obtain ⟨b, e, hI'⟩ := count_ok hI hn v h'.st (by rw [hst', hst]; exact stats_snoc vs v) hin
  refine ⟨b, ?_, hI'⟩
  unfold add
  rw [← Res.bind_assoc', h1, Res.bind_ok]
  have e' : (do
      let i ← sampleBin id h' v
      let x ← PQ.rd h'.bins i
      let b ← PQ.wr h'.bins i (x + 1)
      pure b) = Res.ok b := e
  simp only [Res.bind_eq_ok] at e'
  obtain ⟨i, e1, x, e2, e3⟩ := e'
  rw [e1, Res.bind_ok, e2, Res.bind_ok, e3, Res.bind_ok]
  rfl

/-- Adding to a fixed histogram. -/
theorem add_fixed {h : H} {vs : List Rat} (hI : Inv h vs) (hn : h.n < 2 ^ 32) (hs : h.scal = false) (hg : h.grow = false) (v : Rat) :
    ∃ h', add id h v = .ok h' ∧ Inv h' (vs ++ [v]) ∧ h'.n = h.n ∧ h'.low = h.low ∧ h'.high = h.high ∧ h'.width = h.width ∧ h'.scal = h.scal ∧ h'.grow = h.grow := by
  have e1 : addGrow id { h with st := Stats.add id h.st v } v >>= (addScale id · v) = .ok { h with st := Stats.add id h.st v } := by
    unfold addGrow
    rw [if_neg (by rw [show ({ h with st := Stats.add id h.st v } : H).grow = h.grow from rfl, hg]; simp), Res.bind_ok]
    unfold addScale
    rw [if_neg (by rw [show ({ h with st := Stats.add id h.st v } : H).scal = h.scal from rfl, hs]; simp)]
  obtain ⟨b, e, hI'⟩ := add_count v e1 hI.number hI hn rfl (fun h' => by
    rw [show ({ h with st := Stats.add id h.st v } : H).scal = h.scal from rfl, show ({ h with st := Stats.add id h.st v } : H).grow = h.grow from rfl, hs, hg] at h'
    simp at h')
  exact ⟨_, e, hI', rfl, rfl, rfl, rfl, rfl, rfl⟩

/-- Adding to a scalable histogram. -/
theorem add_scal {h : H} {vs : List Rat} (hI : Inv h vs) (hn : h.n < 2 ^ 32) (hs : h.scal = true) (v : Rat) :
    ∃ h', add id h v = .ok h' ∧ Inv h' (vs ++ [v]) ∧ h'.n = h.n ∧ h'.low ≤ h.low ∧ h.high ≤ h'.high ∧ h'.scal = h.scal ∧ h'.grow = h.grow := by
  have hg : h.grow = false := by
    cases hg : h.grow with
    | false => rfl
    | true => exact absurd ⟨hs, hg⟩ hI.one
  obtain ⟨half, he⟩ := hI.even hs
  have hC := hI.core (Or.inl hs)
  obtain ⟨h1, e1, c1, k1, l1, l2⟩ := addScale_ok (h := { h with st := Stats.add id h.st v }) (vs := vs) ⟨hC.n, hC.width, hC.span, hC.bins, hC.inside⟩ he hs v
  have hs1 : h1.scal = true := k1.scal.trans hs
  have hg1 : h1.grow = false := k1.grow.trans hg
  have hn1 : h1.n = h.n := k1.n
  have e2 : addGrow id { h with st := Stats.add id h.st v } v >>= (addScale id · v) = .ok h1 := by
    unfold addGrow
    rw [if_neg (by rw [show ({ h with st := Stats.add id h.st v } : H).grow = h.grow from rfl, hg]; simp), Res.bind_ok]
    exact e1
  obtain ⟨b, e, hI'⟩ := add_count v e2 hI.number ⟨c1.n, c1.width, c1.span, c1.bins, hI.number, fun _ => c1.inside, fun _ => ⟨half, hn1.trans he⟩, fun h' => by
    have := h'.2
    rw [show ({ h1 with st := h.st } : H).grow = h1.grow from rfl, hg1] at this
    cases this⟩ (by rw [hn1]; exact hn) k1.st (fun _ => ⟨l1, l2⟩)
  exact ⟨_, e, hI', hn1, k1.low, k1.high, hs1.trans hs.symm, hg1.trans hg.symm⟩

/-- A growable histogram that started at `low0` is not far from it. -/
structure Close (h : H) (low0 : Rat) (M : Nat) : Prop where
  low : h.low ≤ low0
  high : low0 ≤ h.high
  below : low0 - h.low ≤ 5 * M * h.width
  above : h.high - low0 ≤ 5 * M * h.width
  below' : h.high - low0 ≤ M * h.width → low0 - h.low ≤ 3 * M * h.width
  above' : low0 - h.low ≤ M * h.width → h.high - low0 ≤ 3 * M * h.width

theorem max_mul_le {a b : Nat} {w X : Rat} (h1 : (a : Rat) * w ≤ X) (h2 : (b : Rat) * w ≤ X) : ((max a b : Nat) : Rat) * w ≤ X := by
  rcases Nat.le_total a b with h | h
  · rw [Nat.max_eq_right h]; exact h2
  · rw [Nat.max_eq_left h]; exact h1

/-- Adding to a growable histogram. -/
theorem add_grow {h : H} {vs : List Rat} (hI : Inv h vs) (hg : h.grow = true) {low0 : Rat} {M : Nat} (hM1 : 1 ≤ M) (hM : M ≤ 100000000) (hC : Close h low0 M) (v : Rat)
    (hv : |v - low0| ≤ M * h.width) :
    ∃ h', add id h v = .ok h' ∧ Inv h' (vs ++ [v]) ∧ Close h' low0 M ∧ h'.width = h.width ∧ h'.low ≤ h.low ∧ h.high ≤ h'.high ∧ h'.scal = h.scal ∧ h'.grow = h.grow := by
  have hs : h.scal = false := by
    cases hs : h.scal with
    | false => rfl
    | true => exact absurd ⟨hs, hg⟩ hI.one
  have hw := hI.width
  have hspan := hI.span
  have hCo := hI.core (Or.inr hg)
  obtain ⟨hv1, hv2⟩ := abs_le.1 hv
  have hM1w : h.width ≤ M * h.width := by
    have : (1 : Rat) ≤ M := by exact_mod_cast hM1
    nlinarith
  have hMw : (M : Rat) * h.width ≤ 100000000 * h.width := mul_le_mul_of_nonneg_right (by exact_mod_cast hM) (le_of_lt hw)
  have hn10 : h.n ≤ 10 * M := by
    have : (h.n : Rat) * h.width ≤ (10 * M) * h.width := by linarith [hC.below, hC.above]
    have := le_of_mul_le_mul_right this hw
    exact_mod_cast this
  -- the state that is grown
  generalize hh : ({ h with st := Stats.add id h.st v } : H) = hx
  have fx : hx.grow = true ∧ hx.scal = false ∧ hx.low = h.low ∧ hx.high = h.high ∧ hx.width = h.width ∧ hx.n = h.n ∧ hx.st = Stats.add id h.st v ∧ hx.bins = h.bins := by
    subst hh; exact ⟨hg, hs, rfl, rfl, rfl, rfl, rfl, rfl⟩
  have finish : ∀ h1 : H, addGrow id hx v = .ok h1 → Core h1 vs → h1.scal = false → h1.grow = true → h1.st = Stats.add id h.st v → h1.low ≤ v ∧ v < h1.high → h1.n < 2 ^ 32 →
      ∃ b, add id h v = .ok { h1 with bins := b } ∧ Inv { h1 with bins := b } (vs ++ [v]) := by
    intro h1 e1 c1 s1 g1 t1 i1 n1
    refine add_count v ?_ hI.number ⟨c1.n, c1.width, c1.span, c1.bins, hI.number, fun _ => c1.inside, fun h' => ?_, fun h' => ?_⟩ n1 t1 (fun _ => i1)
    · rw [hh, e1, Res.bind_ok]
      unfold addScale
      rw [if_neg (by rw [s1]; simp)]
    · have : h1.scal = true := h'
      rw [s1] at this; cases this
    · have : h1.scal = true := h'.1
      rw [s1] at this; cases this
  have hcx : Core { hx with rescales := hx.rescales + 1 } vs := by
    subst hh
    exact ⟨hCo.n, hCo.width, hCo.span, hCo.bins, hCo.inside⟩
  by_cases hup : h.high ≤ v
  · have hb := hC.below' (by linarith)
    obtain ⟨h1, e1, c1, r1, g1, g2, g3⟩ := growUp_ok hcx (v := v) (by show hx.high ≤ v; rw [fx.2.2.2.1]; exact hup)
      (by show hx.n * 2 < _; rw [fx.2.2.2.2.2.1]; omega) (by show v - hx.low < _ * hx.width; rw [fx.2.2.1, fx.2.2.2.2.1]; linarith)
    have g1' : h1.low = h.low := g1.trans fx.2.2.1
    have g2' : h1.width = h.width := g2.trans fx.2.2.2.2.1
    have g3' : h1.n = max (h.n * 2) (⌊(v - h.low) / h.width⌋.toNat + 1) := by
      rw [g3]
      show max (hx.n * 2) (⌊(v - hx.low) / hx.width⌋.toNat + 1) = _
      rw [fx.2.2.2.2.2.1, fx.2.2.1, fx.2.2.2.2.1]
    have hfl : ((⌊(v - h.low) / h.width⌋.toNat + 1 : Nat) : Rat) * h.width ≤ v - h.low + h.width := by
      have hp := hCo.pos
      have := (floor_bounds (x := v - h.low) hw).1
      have h0 : 0 ≤ ⌊(v - h.low) / h.width⌋ := (le_floor_div hw 0).2 (by push_cast; linarith)
      have e : ((⌊(v - h.low) / h.width⌋.toNat : Nat) : Rat) = (⌊(v - h.low) / h.width⌋ : Rat) := by exact_mod_cast Int.toNat_of_nonneg h0
      push_cast
      rw [e]
      linarith
    have hspan1 := c1.span
    have hlow0 := hC.low
    rw [g1', g2', g3'] at hspan1
    have hmul : ((max (h.n * 2) (⌊(v - h.low) / h.width⌋.toNat + 1) : Nat) : Rat) * h.width ≤ 2 * (low0 - h.low) + 2 * M * h.width := by
      apply max_mul_le
      · push_cast; linarith
      · refine le_trans hfl ?_
        linarith
    have hhigh : h1.high - low0 ≤ (low0 - h.low) + 2 * M * h.width := by linarith
    have r1h : h.high ≤ h1.high := le_trans (le_of_eq fx.2.2.2.1.symm) r1.high
    obtain ⟨b, e, hI'⟩ := finish h1 (by
        unfold addGrow
        rw [if_pos ⟨fx.1, Or.inr (by rw [fx.2.2.2.1]; exact hup)⟩, if_pos (by rw [fx.2.2.2.1]; exact hup)]
        exact e1) c1 (r1.scal.trans fx.2.1) (r1.grow.trans fx.1) (r1.st.trans fx.2.2.2.2.2.2.1) r1.inside (by
        have : ((max (h.n * 2) (⌊(v - h.low) / h.width⌋.toNat + 1) : Nat) : Rat) * h.width ≤ ((8 * M : Nat) : Rat) * h.width := le_trans hmul (by push_cast; linarith)
        have := le_of_mul_le_mul_right this hw
        rw [← g3'] at this
        have : h1.n ≤ 8 * M := by exact_mod_cast this
        omega)
    refine ⟨_, e, hI', ⟨?_, ?_, ?_, ?_, ?_, ?_⟩, g2', le_of_eq g1', r1h, (r1.scal.trans fx.2.1).trans hs.symm, (r1.grow.trans fx.1).trans hg.symm⟩
    · show h1.low ≤ low0; rw [g1']; exact hC.low
    · show low0 ≤ h1.high; linarith [hC.high]
    · show low0 - h1.low ≤ 5 * M * h1.width; rw [g1', g2']; exact hC.below
    · show h1.high - low0 ≤ 5 * M * h1.width; rw [g2']; linarith
    · show h1.high - low0 ≤ M * h1.width → low0 - h1.low ≤ 3 * M * h1.width
      rw [g1', g2']; exact fun _ => hb
    · show low0 - h1.low ≤ M * h1.width → h1.high - low0 ≤ 3 * M * h1.width
      rw [g1', g2']; intro _; linarith
  · by_cases hdn : v < h.low
    · have hb := hC.above' (by linarith)
      obtain ⟨h1, e1, c1, r1, g1, g2, g3⟩ := growDown_ok hcx (v := v) (by show v < hx.low; rw [fx.2.2.1]; exact hdn)
        (by show hx.n * 2 < _; rw [fx.2.2.2.2.2.1]; omega) (by show hx.high - v < _ * hx.width; rw [fx.2.2.2.1, fx.2.2.2.2.1]; linarith)
      have g1' : h1.high = h.high := g1.trans fx.2.2.2.1
      have g2' : h1.width = h.width := g2.trans fx.2.2.2.2.1
      have g3' : h1.n = max (h.n * 2) (⌊(h.high - v) / h.width⌋.toNat + 1) := by
        rw [g3]
        show max (hx.n * 2) (⌊(hx.high - v) / hx.width⌋.toNat + 1) = _
        rw [fx.2.2.2.2.2.1, fx.2.2.2.1, fx.2.2.2.2.1]
      have hfl : ((⌊(h.high - v) / h.width⌋.toNat + 1 : Nat) : Rat) * h.width ≤ h.high - v + h.width := by
        have hp := hCo.pos
        have := (floor_bounds (x := h.high - v) hw).1
        have h0 : 0 ≤ ⌊(h.high - v) / h.width⌋ := (le_floor_div hw 0).2 (by push_cast; linarith)
        have e : ((⌊(h.high - v) / h.width⌋.toNat : Nat) : Rat) = (⌊(h.high - v) / h.width⌋ : Rat) := by exact_mod_cast Int.toNat_of_nonneg h0
        push_cast
        rw [e]
        linarith
      have hspan1 := c1.span
      have hhigh0 := hC.high
      rw [g1', g2', g3'] at hspan1
      have hmul : ((max (h.n * 2) (⌊(h.high - v) / h.width⌋.toNat + 1) : Nat) : Rat) * h.width ≤ 2 * (h.high - low0) + 2 * M * h.width := by
        apply max_mul_le
        · push_cast; linarith
        · refine le_trans hfl ?_
          linarith
      have hlow : low0 - h1.low ≤ (h.high - low0) + 2 * M * h.width := by linarith
      have r1l : h1.low ≤ h.low := le_trans r1.low (le_of_eq fx.2.2.1)
      obtain ⟨b, e, hI'⟩ := finish h1 (by
          unfold addGrow
          rw [if_pos ⟨fx.1, Or.inl (by rw [fx.2.2.1]; exact hdn)⟩, if_neg (by rw [fx.2.2.2.1]; exact hup)]
          exact e1) c1 (r1.scal.trans fx.2.1) (r1.grow.trans fx.1) (r1.st.trans fx.2.2.2.2.2.2.1) r1.inside (by
          have : ((max (h.n * 2) (⌊(h.high - v) / h.width⌋.toNat + 1) : Nat) : Rat) * h.width ≤ ((8 * M : Nat) : Rat) * h.width := le_trans hmul (by push_cast; linarith)
          have := le_of_mul_le_mul_right this hw
          rw [← g3'] at this
          have : h1.n ≤ 8 * M := by exact_mod_cast this
          omega)
      refine ⟨_, e, hI', ⟨?_, ?_, ?_, ?_, ?_, ?_⟩, g2', r1l, le_of_eq g1'.symm, (r1.scal.trans fx.2.1).trans hs.symm, (r1.grow.trans fx.1).trans hg.symm⟩
      · show h1.low ≤ low0; linarith [hC.low]
      · show low0 ≤ h1.high; rw [g1']; exact hC.high
      · show low0 - h1.low ≤ 5 * M * h1.width; rw [g2']; linarith
      · show h1.high - low0 ≤ 5 * M * h1.width; rw [g1', g2']; exact hC.above
      · show h1.high - low0 ≤ M * h1.width → low0 - h1.low ≤ 3 * M * h1.width
        rw [g1', g2']; intro _; linarith
      · show low0 - h1.low ≤ M * h1.width → h1.high - low0 ≤ 3 * M * h1.width
        rw [g1', g2']; exact fun _ => hb
    · obtain ⟨b, e, hI'⟩ := finish hx (by
          unfold addGrow
          rw [if_neg (by rw [fx.2.2.1, fx.2.2.2.1]; exact fun h' => h'.2.elim hdn hup)]) ⟨hcx.n, hcx.width, hcx.span, hcx.bins, hcx.inside⟩ fx.2.1 fx.1 fx.2.2.2.2.2.2.1
          (by rw [fx.2.2.1, fx.2.2.2.1]; exact ⟨not_lt.1 hdn, not_le.1 hup⟩) (by rw [fx.2.2.2.2.2.1]; omega)
      refine ⟨_, e, hI', ⟨?_, ?_, ?_, ?_, ?_, ?_⟩, fx.2.2.2.2.1, le_of_eq fx.2.2.1, le_of_eq fx.2.2.2.1.symm, fx.2.1.trans hs.symm, fx.1.trans hg.symm⟩
      · show hx.low ≤ low0; rw [fx.2.2.1]; exact hC.low
      · show low0 ≤ hx.high; rw [fx.2.2.2.1]; exact hC.high
      · show low0 - hx.low ≤ 5 * M * hx.width; rw [fx.2.2.1, fx.2.2.2.2.1]; exact hC.below
      · show hx.high - low0 ≤ 5 * M * hx.width; rw [fx.2.2.2.1, fx.2.2.2.2.1]; exact hC.above
      · show hx.high - low0 ≤ M * hx.width → low0 - hx.low ≤ 3 * M * hx.width
        rw [fx.2.2.1, fx.2.2.2.1, fx.2.2.2.2.1]; exact hC.below'
      · show low0 - hx.low ≤ M * hx.width → hx.high - low0 ≤ 3 * M * hx.width
        rw [fx.2.2.1, fx.2.2.2.1, fx.2.2.2.2.1]; exact hC.above'

/-! ## Histories -/

theorem vals_snoc (ops : List Op) (o : Op) : vals (ops ++ [o]) = match o with | .add v => vals ops ++ [v] | .reset => [] := by
  unfold vals
  rw [List.foldl_append]
  cases o <;> rfl

theorem new_ok {b : Nat} (hb : 0 < b) {low high : Rat} (h : low < high) {scal grow : Bool} (h1 : ¬(scal = true ∧ grow = true)) :
    ∃ h0, new id b low high scal grow = .ok h0 ∧ Inv h0 [] ∧ h0.n = 2 * ((b + 1) / 2) ∧ h0.low = low ∧ h0.high = high ∧ h0.scal = scal ∧ h0.grow = grow := by
  have hn : (0 : Rat) < ((2 * ((b + 1) / 2) : Nat) : Rat) := by
    have : 0 < 2 * ((b + 1) / 2) := by omega
    exact_mod_cast this
  refine ⟨reset id ⟨scal, grow, 2 * ((b + 1) / 2), low, high, 0, [], 0, Stats.reset⟩, ?_, ?_, rfl, rfl, rfl, rfl, rfl⟩
  · unfold new
    rw [show decide (low ≤ high) = true from decide_eq_true (le_of_lt h), show decide (0 < b) = true from decide_eq_true hb, show (!(grow && scal)) = true by cases scal <;> cases grow <;> simp_all]
    rfl
  · refine ⟨?_, ?_, ?_, ?_, ?_, ?_, ?_, h1⟩
    · show 0 < 2 * ((b + 1) / 2); omega
    · exact div_pos (by show 0 < high - low; linarith) hn
    · show low + ((2 * ((b + 1) / 2) : Nat) : Rat) * ((high - low) / ((2 * ((b + 1) / 2) : Nat) : Rat)) = high
      rw [mul_div_cancel₀ _ (ne_of_gt hn)]; ring
    · exact (tally_nil _).symm
    · rfl
    · intro _ v hv; cases hv
    · intro _; exact ⟨(b + 1) / 2, rfl⟩

theorem reset_ok {h : H} {vs : List Rat} (hI : Inv h vs) : Inv (reset id h) [] ∧ (reset id h).width = h.width := by
  have hn : (0 : Rat) < h.n := by exact_mod_cast hI.n
  have hw : (reset id h).width = h.width := by
    show (h.high - h.low) / (h.n : Rat) = h.width
    rw [div_eq_iff (ne_of_gt hn)]
    linarith [hI.span]
  refine ⟨⟨hI.n, by rw [hw]; exact hI.width, by rw [hw]; exact hI.span, (tally_nil _).symm, rfl, fun _ v hv => (by cases hv), hI.even, hI.one⟩, hw⟩

/-- What is kept of the range. -/
structure Rng (h0 h : H) : Prop where
  n : h0.grow = false → h.n = h0.n
  low : h.low ≤ h0.low
  high : h0.high ≤ h.high
  width : h0.scal = false → h.width = h0.width
  fixed : h0.scal = false → h0.grow = false → h.low = h0.low ∧ h.high = h0.high
  scal : h.scal = h0.scal
  grow : h.grow = h0.grow

theorem run_snoc (r : Rat → Rat) (h : H) (ops : List Op) (o : Op) : run r h (ops ++ [o]) = (run r h ops >>= fun h => step r h o) := by
  induction ops generalizing h with
  | nil =>
    show (step r h o >>= fun h => Res.ok h) = step r h o
    cases step r h o <;> rfl
  | cons a ops ih =>
    show (step r h a >>= fun h => run r h (ops ++ [o])) = (step r h a >>= fun h => run r h ops) >>= fun h => step r h o
    rw [Res.bind_assoc']
    simp only [ih]

theorem run_ok {h0 : H} (hI : Inv h0 []) (hn : h0.n < 2 ^ 32) {M : Nat} : ∀ ops : List Op, Fits h0 M ops →
    ∃ h, run id h0 ops = .ok h ∧ Inv h (vals ops) ∧ Rng h0 h ∧ (h0.grow = true → Close h h0.low M) := by
  intro ops
  induction ops using List.reverseRecOn with
  | nil =>
    intro hf
    refine ⟨h0, rfl, hI, ⟨fun _ => rfl, le_refl _, le_refl _, fun _ => rfl, fun _ _ => ⟨rfl, rfl⟩, rfl, rfl⟩, fun hg => ?_⟩
    obtain ⟨f1, f2, -⟩ := hf hg
    have hs := hI.span
    have hw := hI.width
    have : (h0.n : Rat) * h0.width ≤ M * h0.width := mul_le_mul_of_nonneg_right (by exact_mod_cast f1) (le_of_lt hw)
    have h0' : (0 : Rat) ≤ h0.n * h0.width := mul_nonneg (by exact_mod_cast Nat.zero_le _) (le_of_lt hw)
    exact ⟨le_refl _, by linarith, by linarith, by linarith, fun _ => by linarith, fun _ => by linarith⟩
  | append_singleton ops o ih =>
    intro hf
    obtain ⟨h, e, hI1, hR, hC⟩ := ih fun hg => ⟨(hf hg).1, (hf hg).2.1, fun v hv => (hf hg).2.2 v (by simp [hv])⟩
    rw [run_snoc, e, Res.bind_ok, vals_snoc]
    cases o with
    | reset =>
      obtain ⟨r1, r2⟩ := reset_ok hI1
      refine ⟨_, rfl, r1, ⟨hR.n, hR.low, hR.high, fun h' => r2.trans (hR.width h'), hR.fixed, hR.scal, hR.grow⟩, fun hg => ?_⟩
      obtain ⟨c1, c2, c3, c4, c5, c6⟩ := hC hg
      exact ⟨c1, c2, by rw [r2]; exact c3, by rw [r2]; exact c4, by rw [r2]; exact c5, by rw [r2]; exact c6⟩
    | add v =>
      cases hs : h0.scal with
      | true =>
        have hg : h0.grow = false := by
          cases hg : h0.grow with
          | false => rfl
          | true => exact absurd ⟨hs, hg⟩ hI.one
        obtain ⟨h', e', i', k1, k2, k3, k4, k5⟩ := add_scal hI1 (by rw [hR.n hg]; exact hn) (hR.scal.trans hs) v
        exact ⟨h', e', i', ⟨fun h => k1.trans (hR.n h), le_trans k2 hR.low, le_trans hR.high k3, fun h => (by rw [hs] at h; cases h), fun h => (by rw [hs] at h; cases h),
          k4.trans hR.scal, k5.trans hR.grow⟩, fun h => by rw [hg] at h; cases h⟩
      | false =>
        cases hg : h0.grow with
        | true =>
          obtain ⟨f1, f2, f3⟩ := hf hg
          obtain ⟨h', e', i', c', k1, k2, k3, k4, k5⟩ := add_grow hI1 (hR.grow.trans hg) (by have := hI.n; omega) f2 (hC hg) v (by rw [hR.width hs]; exact f3 v (by simp))
          exact ⟨h', e', i', ⟨fun h => (by rw [hg] at h; cases h), le_trans k2 hR.low, le_trans hR.high k3, fun h => k1.trans (hR.width h), fun _ h => (by rw [hg] at h; cases h),
            k4.trans hR.scal, k5.trans hR.grow⟩, fun _ => c'⟩
        | false =>
          obtain ⟨h', e', i', k1, k2, k3, k4, k5, k6⟩ := add_fixed hI1 (by rw [hR.n hg]; exact hn) (hR.scal.trans hs) (hR.grow.trans hg) v
          exact ⟨h', e', i', ⟨fun h => k1.trans (hR.n h), le_trans (le_of_eq k2) hR.low, le_trans hR.high (le_of_eq k3.symm), fun h => k4.trans (hR.width h),
            fun a b => ⟨k2.trans (hR.fixed a b).1, k3.trans (hR.fixed a b).2⟩, k5.trans hR.scal, k6.trans hR.grow⟩, fun h => by cases h⟩

end Verif.Histo
