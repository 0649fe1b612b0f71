import Verif.Histo.AccumSpec
import Verif.Histo.Perc

/-! # Lemmas about histograms that sum up, in exact arithmetic -/

namespace Verif.Histo

open Verif

theorem key_down {low high w u : Rat} {half : Nat} (h0 : 0 < half) (hw : 0 < w) (hs : low + (2 * half : Nat) * w = high) (i1 : low ≤ u) (i2 : u < high) :
    half + key low w (2 * half) u / 2 = key (low - (high - low)) (w + w) (2 * half) u := by
  have hpos : (0 : Rat) < (2 * half : Nat) * w := mul_pos (by exact_mod_cast (by omega : 0 < 2 * half)) hw
  have k1 := key_inRange (n := 2 * half) (by omega) hw i1 (by rw [hs]; exact i2)
  have k2 := key_inRange (low := low - (high - low)) (w := w + w) (n := 2 * half) (by omega) (by linarith) (v := u) (by linarith) (by linarith)
  have e : (u - (low - (high - low))) / (w + w) = (u - low) / w / 2 + ((half : Nat) : Int) := by
    rw [← hs]
    push_cast
    field_simp
    ring
  rw [e, Int.floor_add_intCast, floor_half, ← k1] at k2
  omega

theorem key_up {low high w u : Rat} {half : Nat} (h0 : 0 < half) (hw : 0 < w) (hs : low + (2 * half : Nat) * w = high) (i1 : low ≤ u) (i2 : u < high) :
    key low w (2 * half) u / 2 = key low (w + w) (2 * half) u := by
  have hpos : (0 : Rat) < (2 * half : Nat) * w := mul_pos (by exact_mod_cast (by omega : 0 < 2 * half)) hw
  have k1 := key_inRange (n := 2 * half) (by omega) hw i1 (by rw [hs]; exact i2)
  have k2 := key_inRange (low := low) (w := w + w) (n := 2 * half) (by omega) (by linarith) (v := u) (by linarith) (by linarith)
  have e : (u - low) / (w + w) = (u - low) / w / 2 := by
    field_simp
    ring
  rw [e, floor_half, ← k1] at k2
  omega

/-- The sums, by bin. -/
def sums (h : H) (ps : List (Rat × Rat)) : List Rat := tally h.n (ps.map fun p => (key h.low h.width h.n p.1, p.2))

theorem map_congr_sums {n : Nat} {ps : List (Rat × Rat)} {f g : Rat × Rat → Nat} (h : ∀ p ∈ ps, f p = g p) :
    tally n (ps.map fun p => (f p, p.2)) = tally n (ps.map fun p => (g p, p.2)) := by
  congr 1
  exact List.map_congr_left fun p hp => by rw [h p hp]

theorem inside_fst {h : H} {ps : List (Rat × Rat)} (hC : Core h (ps.map Prod.fst)) {p : Rat × Rat} (hp : p ∈ ps) : h.low ≤ p.1 ∧ p.1 < h.high :=
  hC.inside p.1 (List.mem_map.2 ⟨p, hp, rfl⟩)

theorem sumsDown {h : H} {ps : List (Rat × Rat)} (hC : Core h (ps.map Prod.fst)) {half : Nat} (he : h.n = 2 * half) (b : List Nat) :
    halveDown (fun x y => id (x + y)) 0 h.n (sums h ps) = .ok (sums { h with low := h.low - (h.high - h.low), bins := b, width := h.width + h.width } ps) := by
  have hn := hC.n
  have hs := hC.span
  unfold sums
  show halveDown (fun x y => x + y) 0 h.n _ = .ok (tally h.n _)
  rw [he, halveDown_ok half _ (fun x hx => by
    obtain ⟨u, _, rfl⟩ := List.mem_map.1 hx
    exact key_lt (by omega) _)]
  rw [List.map_map]
  congr 1
  refine map_congr_sums (f := fun p => half + key h.low h.width (2 * half) p.1 / 2) fun p hp => ?_
  obtain ⟨i1, i2⟩ := inside_fst hC hp
  rw [he] at hs
  exact key_down (by omega) hC.width hs i1 i2

theorem sumsUp {h : H} {ps : List (Rat × Rat)} (hC : Core h (ps.map Prod.fst)) {half : Nat} (he : h.n = 2 * half) (b : List Nat) :
    halveUp (fun x y => id (x + y)) 0 h.n (sums h ps) = .ok (sums { h with high := h.high + (h.high - h.low), bins := b, width := h.width + h.width } ps) := by
  have hn := hC.n
  have hs := hC.span
  unfold sums
  show halveUp (fun x y => x + y) 0 h.n _ = .ok (tally h.n _)
  rw [he, halveUp_ok half _ (fun x hx => by
    obtain ⟨u, _, rfl⟩ := List.mem_map.1 hx
    exact key_lt (by omega) _)]
  rw [List.map_map]
  congr 1
  refine map_congr_sums (f := fun p => key h.low h.width (2 * half) p.1 / 2) fun p hp => ?_
  obtain ⟨i1, i2⟩ := inside_fst hC hp
  rw [he] at hs
  exact key_up (by omega) hC.width hs i1 i2

theorem scaleDownA_ok {ps : List (Rat × Rat)} {v : Rat} {half : Nat} : ∀ (m : Nat) (h h' : H), Core h (ps.map Prod.fst) → h.n = 2 * half → scaleDown id v m h = .ok h' →
    scaleDownA id v m ⟨h, sums h ps⟩ = .ok ⟨h', sums h' ps⟩
  | 0, h, h', _, _, e => by
    rw [scaleDown] at e
    rw [scaleDownA]
    by_cases hv : v < h.low
    · rw [if_pos hv] at e; cases e
    · rw [if_neg hv] at e ⊢; cases e; rfl
  | m + 1, h, h', hC, he, e => by
    rw [scaleDown] at e
    rw [scaleDownA]
    by_cases hv : v < h.low
    · rw [if_pos hv] at e ⊢
      obtain ⟨b, e1, hC'⟩ := scaleDown_step hC he
      rw [e1, Res.bind_ok] at e ⊢
      rw [sumsDown hC he b, Res.bind_ok]
      exact scaleDownA_ok m _ h' hC' he e
    · rw [if_neg hv] at e ⊢; cases e; rfl

theorem scaleUpA_ok {ps : List (Rat × Rat)} {v : Rat} {half : Nat} : ∀ (m : Nat) (h h' : H), Core h (ps.map Prod.fst) → h.n = 2 * half → scaleUp id v m h = .ok h' →
    scaleUpA id v m ⟨h, sums h ps⟩ = .ok ⟨h', sums h' ps⟩
  | 0, h, h', _, _, e => by
    rw [scaleUp] at e
    rw [scaleUpA]
    by_cases hv : h.high ≤ v
    · rw [if_pos hv] at e; cases e
    · rw [if_neg hv] at e ⊢; cases e; rfl
  | m + 1, h, h', hC, he, e => by
    rw [scaleUp] at e
    rw [scaleUpA]
    by_cases hv : h.high ≤ v
    · rw [if_pos hv] at e ⊢
      obtain ⟨b, e1, hC'⟩ := scaleUp_step hC he
      rw [e1, Res.bind_ok] at e ⊢
      rw [sumsUp hC he b, Res.bind_ok]
      exact scaleUpA_ok m _ h' hC' he e
    · rw [if_neg hv] at e ⊢; cases e; rfl

theorem addScaleA_ok {ps : List (Rat × Rat)} {h : H} (hC : Core h (ps.map Prod.fst)) {half : Nat} (he : h.n = 2 * half) (hsc : h.scal = true) (v : Rat) :
    ∃ h', addScaleA id ⟨h, sums h ps⟩ v = .ok ⟨h', sums h' ps⟩ ∧ Core h' (ps.map Prod.fst) ∧ Kept h h' ∧ h'.low ≤ v ∧ v < h'.high := by
  unfold addScaleA
  by_cases hv : v < h.low ∨ h.high ≤ v
  · rw [if_pos ⟨hsc, hv⟩]
    obtain ⟨r1, r2⟩ := scale_rounds hC.pos v
    have hC0 : Core { h with rescales := h.rescales + 1 } (ps.map Prod.fst) := ⟨hC.n, hC.width, hC.span, hC.bins, hC.inside⟩
    obtain ⟨h1, e1, c1, k1, l1, g1⟩ := scaleDown_ok (v := v) (rounds h v) { h with rescales := h.rescales + 1 } hC0 he (le_of_lt r1)
    have hlow : h1.low ≤ h.low := k1.low
    have hhigh : h1.high = h.high := g1
    have hn1 : h1.n = 2 * half := by rw [k1.n]; exact he
    obtain ⟨h2, e2, c2, k2, l2, g2⟩ := scaleUp_ok (v := v) (rounds h v) h1 c1 hn1 (by
      rw [hhigh]
      have : (rounds h v : Rat) * (h.high - h.low) ≤ rounds h v * (h.high - h1.low) := mul_le_mul_of_nonneg_left (by linarith) (Nat.cast_nonneg _)
      linarith)
    refine ⟨h2, ?_, c2, Kept.trans ⟨k1.scal, k1.grow, k1.st, k1.n, k1.low, k1.high⟩ k2, by rw [g2]; exact l1, l2⟩
    have f1 := scaleDownA_ok (ps := ps) (rounds h v) _ h1 hC0 he e1
    have f2 := scaleUpA_ok (ps := ps) (rounds h v) h1 h2 c1 hn1 e2
    have f1' : scaleDownA id v (rounds h v) ⟨{ h with rescales := h.rescales + 1 }, sums h ps⟩ = _ := f1
    show (scaleDownA id v (rounds h v) ⟨{ h with rescales := h.rescales + 1 }, sums h ps⟩ >>= scaleUpA id v (rounds h v)) = _
    rw [f1', Res.bind_ok, f2]
  · rw [if_neg (fun h => hv h.2)]
    push Not at hv
    exact ⟨h, rfl, hC, Kept.refl h, hv.1, hv.2⟩

/-- What holds of a histogram that sums up. -/
structure InvA (a : A) (ps : List (Rat × Rat)) : Prop where
  n : 0 < a.h.n
  width : 0 < a.h.width
  span : a.h.low + a.h.n * a.h.width = a.h.high
  bins : a.h.bins = tally a.h.n ((ps.map Prod.fst).map fun v => (key a.h.low a.h.width a.h.n v, 1))
  val : a.val = sums a.h ps
  number : a.h.st = Stats.eval id (Stats.adds .new (ps.map Prod.snd))
  inside : a.h.scal = true → ∀ p ∈ ps, a.h.low ≤ p.1 ∧ p.1 < a.h.high
  even : ∃ m, a.h.n = 2 * m

theorem tally_set {α : Type} [AddCommMonoid α] {n k : Nat} (ks : List (Nat × α)) (hk : k < n) (d : α) :
    (tally n ks).set k (PQ.g 0 (tally n ks) k + d) = tally n (ks ++ [(k, d)]) := by
  refine eq_tally (by simp) fun i hi => ?_
  rw [get_set _ _ _ _ (by simpa using hk), at_append]
  simp only [at_cons, at_nil, add_zero]
  by_cases hki : k = i
  · subst hki
    rw [if_pos rfl]
    unfold PQ.g
    rw [List.getD_eq_getElem?_getD, tally_get ks hk]
    simp
  · rw [if_neg hki, tally_get ks hi]
    simp [hki]

theorem addA_ok {a : A} {ps : List (Rat × Rat)} (hI : InvA a ps) (hn : a.h.n < 2 ^ 32) (i d : Rat) :
    ∃ a', addA id a i d = .ok a' ∧ InvA a' (ps ++ [(i, d)]) ∧ a'.h.n = a.h.n ∧ a'.h.low ≤ a.h.low ∧ a.h.high ≤ a'.h.high ∧ a'.h.scal = a.h.scal ∧
      (a.h.scal = false → a'.h.low = a.h.low ∧ a'.h.high = a.h.high) := by
  obtain ⟨half, he⟩ := hI.even
  -- making room
  have room : ∃ h', addScaleA id { a with h := { a.h with st := Stats.add id a.h.st d } } i = .ok ⟨h', sums h' ps⟩ ∧ h'.n = a.h.n ∧ 0 < h'.width ∧ h'.low + h'.n * h'.width = h'.high ∧
      h'.bins = tally h'.n ((ps.map Prod.fst).map fun v => (key h'.low h'.width h'.n v, 1)) ∧ h'.st = Stats.add id a.h.st d ∧
      (h'.scal = true → ∀ p ∈ ps ++ [(i, d)], h'.low ≤ p.1 ∧ p.1 < h'.high) ∧ h'.low ≤ a.h.low ∧ a.h.high ≤ h'.high ∧ h'.scal = a.h.scal ∧
      (a.h.scal = false → h'.low = a.h.low ∧ h'.high = a.h.high) := by
    cases hs : a.h.scal with
    | false =>
      refine ⟨{ a.h with st := Stats.add id a.h.st d }, ?_, rfl, hI.width, hI.span, hI.bins, rfl, fun h' => ?_, le_refl _, le_refl _, hs, fun _ => ⟨rfl, rfl⟩⟩
      · unfold addScaleA
        rw [if_neg (by rw [show ({ a with h := { a.h with st := Stats.add id a.h.st d } } : A).h.scal = a.h.scal from rfl, hs]; simp), hI.val]
        rfl
      · have : a.h.scal = true := h'
        rw [hs] at this; cases this
    | true =>
      obtain ⟨h', e, c, k, l1, l2⟩ := addScaleA_ok (ps := ps) (h := { a.h with st := Stats.add id a.h.st d }) ⟨hI.n, hI.width, hI.span, hI.bins, fun v hv => by
        obtain ⟨p, hp, rfl⟩ := List.mem_map.1 hv
        exact hI.inside hs p hp⟩ he hs i
      refine ⟨h', ?_, k.n, c.width, c.span, c.bins, k.st, fun _ p hp => ?_, k.low, k.high, k.scal.trans hs, fun h => by cases h⟩
      · rw [hI.val]; exact e
      · rcases List.mem_append.1 hp with hp | hp
        · exact inside_fst c hp
        · rw [List.mem_singleton.1 hp]; exact ⟨l1, l2⟩
  obtain ⟨h', e, n', w', s', b', st', in', lo', hi', sc', fx'⟩ := room
  have hn0 : 0 < h'.n := by rw [n']; exact hI.n
  have hk := key_lt (low := h'.low) (w := h'.width) hn0 i
  -- the invariant of the plain histogram, for the bin
  have hsb : sampleBin id h' i = .ok (key h'.low h'.width h'.n i) :=
    sampleBin_ok (h := { h' with scal := false, grow := false, st := Stats.eval id (Stats.adds .new (ps.map Prod.fst)) }) (vs := ps.map Prod.fst)
      ⟨hn0, w', s', b', rfl, fun h => (by rcases h with h | h <;> cases h), fun h => (by cases h), fun h => (by cases h.1)⟩ (by show h'.n < _; omega) i
  have hl1 : h'.bins.length = h'.n := by rw [b', tally_length]
  have hl2 : (sums h' ps).length = h'.n := by unfold sums; rw [tally_length]
  refine ⟨⟨{ h' with bins := h'.bins.set (key h'.low h'.width h'.n i) (PQ.g 0 h'.bins (key h'.low h'.width h'.n i) + 1) },
    (sums h' ps).set (key h'.low h'.width h'.n i) (PQ.g 0 (sums h' ps) (key h'.low h'.width h'.n i) + d)⟩, ?_, ⟨hn0, w', s', ?_, ?_, ?_, in', ⟨half, n'.trans he⟩⟩, n', lo', hi', sc', fx'⟩
  · unfold addA
    rw [e, Res.bind_ok]
    show (sampleBin id h' i >>= _) = _
    rw [hsb, Res.bind_ok]
    show (PQ.rd h'.bins _ >>= _) = _
    rw [PQ.rd_eq 0 _ _ (by omega), Res.bind_ok, PQ.wr_eq _ _ _ (by show _ < h'.bins.length; omega), Res.bind_ok]
    show (PQ.rd (sums h' ps) _ >>= _) = _
    rw [PQ.rd_eq 0 _ _ (by omega), Res.bind_ok, PQ.wr_eq _ _ _ (by show _ < (sums h' ps).length; omega), Res.bind_ok]
    rfl
  · show h'.bins.set _ _ = tally h'.n _
    rw [b', tally_set _ hk, List.map_append, List.map_append]
    rfl
  · show (sums h' ps).set _ _ = tally h'.n ((ps ++ [(i, d)]).map _)
    unfold sums
    rw [tally_set _ hk, List.map_append]
    rfl
  · show h'.st = _
    rw [st', hI.number, List.map_append]
    exact stats_snoc _ d

theorem pairs_snoc (ops : List Op2) (o : Op2) : pairs (ops ++ [o]) = match o with | .add i d => pairs ops ++ [(i, d)] | .reset => [] := by
  unfold pairs
  rw [List.foldl_append]
  cases o <;> rfl

theorem runA_snoc (r : Rat → Rat) (a : A) (ops : List Op2) (o : Op2) : runA r a (ops ++ [o]) = (runA r a ops >>= fun a => stepA r a o) := by
  induction ops generalizing a with
  | nil =>
    show (stepA r a o >>= fun a => Res.ok a) = stepA r a o
    cases stepA r a o <;> rfl
  | cons x ops ih =>
    show (stepA r a x >>= fun a => runA r a (ops ++ [o])) = (stepA r a x >>= fun a => runA r a ops) >>= fun a => stepA r a o
    rw [Res.bind_assoc']
    simp only [ih]

theorem zeroUp_all (n : Nat) (b : List Rat) (h : b.length = n) : zeroUp 0 0 n b = .ok (List.replicate n 0) := by
  obtain ⟨b', e, l, h1, -⟩ := zeroUp_ok n 0 b (by omega)
  rw [e]
  congr 1
  apply List.ext_getElem?
  intro i
  by_cases hi : i < n
  · rw [h1 i (by omega) (by omega), List.getElem?_replicate_of_lt hi]
  · rw [List.getElem?_eq_none (by omega), List.getElem?_eq_none (by simp; omega)]

theorem resetA_ok {a : A} (hn : 0 < a.h.n) (hlh : a.h.low < a.h.high) (hl : a.val.length = a.h.n) (he : ∃ m, a.h.n = 2 * m) :
    ∃ a', resetA id a = .ok a' ∧ InvA a' [] ∧ a'.h.n = a.h.n ∧ a'.h.low = a.h.low ∧ a'.h.high = a.h.high ∧ a'.h.scal = a.h.scal := by
  have hnq : (0 : Rat) < a.h.n := by exact_mod_cast hn
  refine ⟨⟨reset id a.h, List.replicate a.h.n 0⟩, ?_, ⟨hn, ?_, ?_, ?_, ?_, rfl, fun _ p hp => (by cases hp), he⟩, rfl, rfl, rfl, rfl⟩
  · unfold resetA
    rw [zeroUp_all _ _ hl]
    rfl
  · exact div_pos (by show 0 < a.h.high - a.h.low; linarith) hnq
  · show a.h.low + a.h.n * ((a.h.high - a.h.low) / a.h.n) = a.h.high
    rw [mul_div_cancel₀ _ (ne_of_gt hnq)]; ring
  · exact (tally_nil _).symm
  · exact (tally_nil _).symm

theorem newA_ok {b : Nat} (hb : 0 < b) (heven : b % 2 = 0) {low high : Rat} (h : low < high) {scal grow : Bool} (h1 : ¬(scal = true ∧ grow = true)) :
    ∃ a, newA id b low high scal grow = .ok a ∧ InvA a [] ∧ a.h.n = b ∧ a.h.low = low ∧ a.h.high = high ∧ a.h.scal = scal := by
  obtain ⟨h0, e, hI, n0, l0, g0, s0, -⟩ := new_ok hb h h1
  have hb2 : 2 * ((b + 1) / 2) = b := by omega
  obtain ⟨a, e', i', n', l', g', s'⟩ := resetA_ok (a := ⟨h0, List.replicate b 0⟩) hI.n (by show h0.low < h0.high; rw [l0, g0]; exact h)
    (by show (List.replicate b (0 : Rat)).length = h0.n; rw [List.length_replicate, n0, hb2]) ⟨(b + 1) / 2, n0⟩
  refine ⟨a, ?_, i', n'.trans (n0.trans hb2), l'.trans l0, g'.trans g0, s'.trans s0⟩
  unfold newA
  rw [e, Res.bind_ok]
  exact e'

theorem runA_ok {a0 : A} (hI : InvA a0 []) (hn : a0.h.n < 2 ^ 32) : ∀ ops : List Op2, ∃ a, runA id a0 ops = .ok a ∧ InvA a (pairs ops) ∧ a.h.n = a0.h.n ∧
    a.h.low ≤ a0.h.low ∧ a0.h.high ≤ a.h.high ∧ a.h.scal = a0.h.scal ∧ (a0.h.scal = false → a.h.low = a0.h.low ∧ a.h.high = a0.h.high) := by
  intro ops
  induction ops using List.reverseRecOn with
  | nil => exact ⟨a0, rfl, hI, rfl, le_refl _, le_refl _, rfl, fun _ => ⟨rfl, rfl⟩⟩
  | append_singleton ops o ih =>
    obtain ⟨a, e, hI1, n1, l1, g1, s1, f1⟩ := ih
    rw [runA_snoc, e, Res.bind_ok, pairs_snoc]
    cases o with
    | reset =>
      obtain ⟨a', e', i', n', l', g', s'⟩ := resetA_ok hI1.n (by
        have : (0 : Rat) < a.h.n * a.h.width := mul_pos (by exact_mod_cast hI1.n) hI1.width
        linarith [hI1.span]) (by rw [hI1.val]; unfold sums; rw [tally_length]) hI1.even
      exact ⟨a', e', i', n'.trans n1, le_trans (le_of_eq l') l1, le_trans g1 (le_of_eq g'.symm), s'.trans s1, fun h => ⟨l'.trans (f1 h).1, g'.trans (f1 h).2⟩⟩
    | add i d =>
      obtain ⟨a', e', i', n', l', g', s', f'⟩ := addA_ok hI1 (by rw [n1]; exact hn) i d
      exact ⟨a', e', i', n'.trans n1, le_trans l' l1, le_trans g1 g', s'.trans s1, fun h => ⟨(f' (s1.trans h)).1.trans (f1 h).1, (f' (s1.trans h)).2.trans (f1 h).2⟩⟩

theorem at_filter (f : Rat × Rat → Nat) (k : Nat) : ∀ ps : List (Rat × Rat), at' k (ps.map fun p => (f p, p.2)) = ((ps.filter fun p => decide (f p = k)).map Prod.snd).sum
  | [] => rfl
  | p :: ps => by
    rw [List.map_cons, at_cons, at_filter f k ps, List.filter_cons]
    by_cases h : f p = k
    · simp [h]
    · simp [h]

end Verif.Histo
