import Verif.Histo.Accum

/-! # Lemmas about groups of histograms -/

namespace Verif.Histo

open Verif

/-- The calls on one histogram. -/
def subRun {α : Type} (sub : α → Op2 → Res α) : α → List Op2 → Res α
  | h, [] => .ok h
  | h, o :: os => do
    let h ← sub h o
    subRun sub h os

theorem subRun_snoc {α : Type} (sub : α → Op2 → Res α) (h : α) (ops : List Op2) (o : Op2) : subRun sub h (ops ++ [o]) = (subRun sub h ops >>= fun h => sub h o) := by
  induction ops generalizing h with
  | nil =>
    show (sub h o >>= fun a => Res.ok a) = sub h o
    cases sub h o <;> rfl
  | cons x ops ih =>
    show (sub h x >>= fun a => subRun sub a (ops ++ [o])) = (sub h x >>= fun a => subRun sub a ops) >>= fun a => sub a o
    rw [Res.bind_assoc']
    simp only [ih]

theorem runG_snoc {α : Type} (r : Rat → Rat) (sub : α → Op2 → Res α) (g : Group α) (ops : List Op2) (o : Op2) :
    runG r sub g (ops ++ [o]) = (runG r sub g ops >>= fun g => stepG r sub g o) := by
  induction ops generalizing g with
  | nil =>
    show (stepG r sub g o >>= fun a => Res.ok a) = stepG r sub g o
    cases stepG r sub g o <;> rfl
  | cons x ops ih =>
    show (stepG r sub g x >>= fun a => runG r sub a (ops ++ [o])) = (stepG r sub g x >>= fun a => runG r sub a ops) >>= fun a => stepG r sub a o
    rw [Res.bind_assoc']
    simp only [ih]

theorem between_iff {ranges : List Rat} {i : Nat} {v : Rat} : between ranges i v = true ↔ ∃ a b, ranges[i]? = some a ∧ ranges[i + 1]? = some b ∧ a ≤ v ∧ v < b := by
  unfold between
  cases h1 : ranges[i]? with
  | none => simp
  | some a =>
    cases h2 : ranges[i + 1]? with
    | none => simp
    | some b => simp

theorem sorted_get {ranges : List Rat} (hs : ranges.Pairwise (· ≤ ·)) {i j : Nat} {a b : Rat} (hij : i ≤ j) (h1 : ranges[i]? = some a) (h2 : ranges[j]? = some b) : a ≤ b := by
  rcases Nat.eq_or_lt_of_le hij with h | h
  · subst h; rw [h1] at h2; cases h2; exact le_refl _
  · obtain ⟨hi, rfl⟩ := List.getElem?_eq_some_iff.1 h1
    obtain ⟨hj, rfl⟩ := List.getElem?_eq_some_iff.1 h2
    exact List.pairwise_iff_getElem.1 hs i j hi hj h

theorem between_unique {ranges : List Rat} (hs : ranges.Pairwise (· ≤ ·)) {i j : Nat} {v : Rat} (h1 : between ranges i v = true) (h2 : between ranges j v = true) : i = j := by
  obtain ⟨a, b, a1, a2, a3, a4⟩ := between_iff.1 h1
  obtain ⟨c, d, c1, c2, c3, c4⟩ := between_iff.1 h2
  rcases Nat.lt_trichotomy i j with h | h | h
  · have := sorted_get hs (show i + 1 ≤ j by omega) a2 c1; linarith
  · exact h
  · have := sorted_get hs (show j + 1 ≤ i by omega) c2 a1; linarith

theorem below_iff {ranges : List Rat} (hs : ranges.Pairwise (· ≤ ·)) {x v : Rat} (h0 : ranges[0]? = some x) : below ranges v = true ↔ v < x := by
  unfold below
  rw [List.all_eq_true]
  constructor
  · intro h
    exact of_decide_eq_true (h x (List.mem_of_getElem? h0))
  · intro h y hy
    obtain ⟨j, hj⟩ := List.getElem?_of_mem hy
    exact decide_eq_true (lt_of_lt_of_le h (sorted_get hs (Nat.zero_le j) h0 hj))

theorem above_not_between {ranges : List Rat} {i : Nat} {v : Rat} (h : above ranges v = true) : between ranges i v = false := by
  cases hb : between ranges i v with
  | false => rfl
  | true =>
    obtain ⟨a, b, _, h2, _, h4⟩ := between_iff.1 hb
    have := of_decide_eq_true (List.all_eq_true.1 h b (List.mem_of_getElem? h2))
    linarith

theorem between_not_above {ranges : List Rat} {i : Nat} {v : Rat} (h : between ranges i v = true) : above ranges v = false := by
  cases hb : above ranges v with
  | false => rfl
  | true => rw [above_not_between hb] at h; cases h

theorem below_not_between {ranges : List Rat} {i : Nat} {v : Rat} (h : below ranges v = true) : between ranges i v = false := by
  cases hb : between ranges i v with
  | false => rfl
  | true =>
    obtain ⟨a, b, h1, _, h3, _⟩ := between_iff.1 hb
    have := of_decide_eq_true (List.all_eq_true.1 h a (List.mem_of_getElem? h1))
    linarith

/-- The loop finds the place. -/
theorem route_ok {α : Type} (sub : α → Op2 → Res α) (v d : Rat) {ranges : List Rat} {hs : List α} (hso : ranges.Pairwise (· ≤ ·)) (hl : hs.length + 1 = ranges.length) :
    ∀ (m i : Nat) (x : Rat), 1 ≤ i → ranges.length = i + m → ranges[i - 1]? = some x → x ≤ v →
    (∃ j h, between ranges j v = true ∧ hs[j]? = some h ∧ route sub v d ranges hs m i = (sub h (.add v d) >>= fun h => Res.ok (some (hs.set j h)))) ∨
    (above ranges v = true ∧ route sub v d ranges hs m i = .ok none)
  | 0, i, x, hi, hm, hx, hv => by
    refine Or.inr ⟨?_, rfl⟩
    unfold above
    rw [List.all_eq_true]
    intro y hy
    obtain ⟨j, hj⟩ := List.getElem?_of_mem hy
    have hjl : j < ranges.length := (List.getElem?_eq_some_iff.1 hj).1
    exact decide_eq_true (le_trans (sorted_get hso (by omega) hj hx) hv)
  | m + 1, i, x, hi, hm, hx, hv => by
    have hil : i < ranges.length := by omega
    have hg : ranges[i]? = some (PQ.g 0 ranges i) := by
      unfold PQ.g; rw [List.getD_eq_getElem?_getD, List.getElem?_eq_getElem hil]; rfl
    rw [route, PQ.rd_eq 0 _ _ hil, Res.bind_ok]
    by_cases hv' : v < PQ.g 0 ranges i
    · left
      have hj : i - 1 < hs.length := by omega
      refine ⟨i - 1, hs[i - 1], ?_, List.getElem?_eq_getElem hj, ?_⟩
      · rw [between_iff]
        exact ⟨x, _, hx, by rw [show i - 1 + 1 = i by omega]; exact hg, hv, hv'⟩
      · rw [if_pos hv']
        have : PQ.rd hs (i - 1) = .ok hs[i - 1] := by unfold PQ.rd; rw [List.getElem?_eq_getElem hj]
        rw [this, Res.bind_ok]
        cases sub hs[i - 1] (.add v d) with
        | abort => rfl
        | ub => rfl
        | ok h =>
          rw [Res.bind_ok, Res.bind_ok, PQ.wr_eq _ _ _ hj, Res.bind_ok]
          rfl
    · rw [if_neg hv']
      exact route_ok sub v d hso hl m (i + 1) _ (by omega) (by omega) hg (not_lt.1 hv')

theorem resetAll_ok {α : Type} (sub : α → Op2 → Res α) : ∀ hs : List α, (∀ (i : Nat) (h : α), hs[i]? = some h → ∃ h', sub h .reset = .ok h') →
    ∃ hs' : List α, resetAll sub hs = .ok hs' ∧ hs'.length = hs.length ∧ ∀ (i : Nat) (h : α), hs[i]? = some h → ∃ h', hs'[i]? = some h' ∧ sub h .reset = .ok h'
  | [], _ => ⟨[], rfl, rfl, fun i h e => by cases e⟩
  | h :: hs, hok => by
    obtain ⟨h', e⟩ := hok 0 h rfl
    obtain ⟨hs', e', l', g'⟩ := resetAll_ok sub hs fun i x hx => hok (i + 1) x hx
    refine ⟨h' :: hs', by rw [resetAll, e, Res.bind_ok, e']; rfl, by simp [l'], fun i x hx => ?_⟩
    cases i with
    | zero => cases hx; exact ⟨h', rfl, e⟩
    | succ i => exact g' i x hx

/-- What holds of a group after some calls. -/
structure InvG {α : Type} (r : Rat → Rat) (sub : α → Op2 → Res α) (g0 g : Group α) (ops : List Op2) : Prop where
  ranges : g.ranges = g0.ranges
  len : g.hists.length = g0.hists.length
  hists : ∀ (i : Nat) (h0 : α), g0.hists[i]? = some h0 → ∃ h, g.hists[i]? = some h ∧ subRun sub h0 (ops.filter (concerns g0.ranges i)) = .ok h
  low : g.low = Stats.eval r (Stats.adds .new (((pairs ops).filter fun p => below g0.ranges p.1).map Prod.snd))
  high : g.high = Stats.eval r (Stats.adds .new (((pairs ops).filter fun p => above g0.ranges p.1).map Prod.snd))
  st : g.st = Stats.eval r (Stats.adds .new ((pairs ops).map Prod.snd))

theorem adds_snoc (r : Rat → Rat) (l : List Rat) (d : Rat) : Stats.eval r (Stats.adds .new (l ++ [d])) = Stats.add r (Stats.eval r (Stats.adds .new l)) d := by
  unfold Stats.adds
  rw [List.foldl_append]
  rfl

theorem group_ok {α : Type} (r : Rat → Rat) (sub : α → Op2 → Res α) {g0 : Group α} (hso : g0.ranges.Pairwise (· ≤ ·)) (hl : g0.hists.length + 1 = g0.ranges.length) (h2 : 2 ≤ g0.ranges.length)
    (e1 : g0.low = Stats.reset) (e2 : g0.high = Stats.reset) (e3 : g0.st = Stats.reset) :
    ∀ ops : List Op2, (∀ (i : Nat) (h0 : α), g0.hists[i]? = some h0 → ∃ h, subRun sub h0 (ops.filter (concerns g0.ranges i)) = .ok h) →
    ∃ g, runG r sub g0 ops = .ok g ∧ InvG r sub g0 g ops := by
  intro ops
  induction ops using List.reverseRecOn with
  | nil => intro _; exact ⟨g0, rfl, rfl, rfl, fun i h0 h => ⟨h0, h, rfl⟩, e1, e2, e3⟩
  | append_singleton ops o ih =>
    intro hok
    obtain ⟨g, e, hI⟩ := ih fun i h0 hh => by
      obtain ⟨h, eh⟩ := hok i h0 hh
      rw [List.filter_append] at eh
      cases hc : concerns g0.ranges i o with
      | false =>
        rw [List.filter_cons_of_neg (by simp [hc]), List.filter_nil, List.append_nil] at eh
        exact ⟨h, eh⟩
      | true =>
        rw [List.filter_cons_of_pos hc, List.filter_nil, subRun_snoc, Res.bind_eq_ok] at eh
        obtain ⟨h', eh', -⟩ := eh
        exact ⟨h', eh'⟩
    rw [runG_snoc, e, Res.bind_ok]
    cases o with
    | reset =>
      have hsub : ∀ (i : Nat) (h : α), g.hists[i]? = some h → ∃ h', sub h .reset = .ok h' := by
        intro i h hh
        have hi : i < g0.hists.length := by rw [← hI.len]; exact (List.getElem?_eq_some_iff.1 hh).1
        obtain ⟨h1, hh1, er⟩ := hI.hists i _ (List.getElem?_eq_getElem hi)
        rw [hh] at hh1; cases hh1
        obtain ⟨h', eh⟩ := hok i _ (List.getElem?_eq_getElem hi)
        rw [List.filter_append, List.filter_cons_of_pos (by rfl), List.filter_nil, subRun_snoc, er, Res.bind_ok] at eh
        exact ⟨h', eh⟩
      obtain ⟨hs', er, l', g'⟩ := resetAll_ok sub g.hists hsub
      refine ⟨{ g with st := Stats.reset, low := Stats.reset, high := Stats.reset, hists := hs' }, ?_, hI.ranges, l'.trans hI.len, fun i h0 hh => ?_, ?_, ?_, ?_⟩
      · show (resetAll sub g.hists >>= _) = _
        rw [er]; rfl
      · obtain ⟨h1, hh1, er1⟩ := hI.hists i h0 hh
        obtain ⟨h', hh', er'⟩ := g' i h1 hh1
        refine ⟨h', hh', ?_⟩
        rw [List.filter_append, List.filter_cons_of_pos (by rfl), List.filter_nil, subRun_snoc, er1, Res.bind_ok, er']
      · rw [pairs_snoc]; rfl
      · rw [pairs_snoc]; rfl
      · rw [pairs_snoc]; rfl
    | add v d =>
      have h0l : 0 < g0.ranges.length := by omega
      have hg0 : g0.ranges[0]? = some (PQ.g 0 g0.ranges 0) := by
        unfold PQ.g; rw [List.getD_eq_getElem?_getD, List.getElem?_eq_getElem h0l]; rfl
      have keep : ∀ i, between g0.ranges i v = false → (ops ++ [Op2.add v d]).filter (concerns g0.ranges i) = ops.filter (concerns g0.ranges i) := by
        intro i hb
        rw [List.filter_append, List.filter_cons_of_neg (by show ¬ between g0.ranges i v = true; rw [hb]; simp), List.filter_nil, List.append_nil]
      have hst : Stats.add r g.st d = Stats.eval r (Stats.adds .new ((pairs (ops ++ [Op2.add v d])).map Prod.snd)) := by
        rw [pairs_snoc, List.map_append, hI.st]; exact (adds_snoc r _ d).symm
      by_cases hv : v < PQ.g 0 g0.ranges 0
      · have hb := (below_iff hso hg0).2 hv
        have ha : above g0.ranges v = false := by
          cases ha : above g0.ranges v with
          | false => rfl
          | true =>
            have := of_decide_eq_true (List.all_eq_true.1 ha _ (List.mem_of_getElem? hg0))
            linarith
        refine ⟨{ g with st := Stats.add r g.st d, low := Stats.add r g.low d }, ?_, hI.ranges, hI.len, fun i h0 hh => ?_, ?_, ?_, hst⟩
        · show (PQ.rd g.ranges 0 >>= _) = _
          rw [hI.ranges, PQ.rd_eq 0 _ _ h0l, Res.bind_ok, if_pos hv]
          rfl
        · rw [keep i (below_not_between hb)]; exact hI.hists i h0 hh
        · show Stats.add r g.low d = _
          rw [pairs_snoc, List.filter_append, List.filter_cons_of_pos (by exact hb), List.filter_nil, List.map_append, hI.low]; exact (adds_snoc r _ d).symm
        · show g.high = _
          rw [pairs_snoc, List.filter_append, List.filter_cons_of_neg (by simp [ha]), List.filter_nil, List.append_nil, hI.high]
      · have hb : below g0.ranges v = false := by
          cases hb : below g0.ranges v with
          | false => rfl
          | true => exact absurd ((below_iff hso hg0).1 hb) hv
        have hlow : g.low = Stats.eval r (Stats.adds .new (((pairs (ops ++ [Op2.add v d])).filter fun p => below g0.ranges p.1).map Prod.snd)) := by
          rw [pairs_snoc, List.filter_append, List.filter_cons_of_neg (by simp [hb]), List.filter_nil, List.append_nil, hI.low]
        rcases route_ok sub v d (hs := g.hists) hso (by rw [hI.len]; exact hl) (g0.ranges.length - 1) 1 _ (le_refl _) (by omega) hg0 (not_lt.1 hv) with ⟨j, h, hbj, hj, er⟩ | ⟨ha, er⟩
        · have hj0 : j < g0.hists.length := by rw [← hI.len]; exact (List.getElem?_eq_some_iff.1 hj).1
          obtain ⟨h1, hh1, er1⟩ := hI.hists j _ (List.getElem?_eq_getElem hj0)
          rw [hj] at hh1; cases hh1
          obtain ⟨h', eh⟩ := hok j _ (List.getElem?_eq_getElem hj0)
          rw [List.filter_append, List.filter_cons_of_pos (by exact hbj), List.filter_nil, subRun_snoc, er1, Res.bind_ok] at eh
          rw [eh, Res.bind_ok] at er
          refine ⟨{ g with st := Stats.add r g.st d, hists := g.hists.set j h' }, ?_, hI.ranges, by simp [hI.len], fun i h0 hh => ?_, hlow, ?_, hst⟩
          · show (PQ.rd g.ranges 0 >>= _) = _
            rw [hI.ranges, PQ.rd_eq 0 _ _ h0l, Res.bind_ok, if_neg hv, er]
            rfl
          · by_cases hij : i = j
            · subst hij
              rw [List.getElem?_eq_getElem hj0] at hh
              cases hh
              refine ⟨h', List.getElem?_set_self (by rw [hI.len]; exact hj0), ?_⟩
              rw [List.filter_append, List.filter_cons_of_pos (by exact hbj), List.filter_nil, subRun_snoc, er1, Res.bind_ok, eh]
            · have hbi : between g0.ranges i v = false := by
                cases hbi : between g0.ranges i v with
                | false => rfl
                | true => exact absurd (between_unique hso hbi hbj) hij
              rw [keep i hbi]
              obtain ⟨h2, hh2, er2⟩ := hI.hists i h0 hh
              exact ⟨h2, by show (g.hists.set j h')[i]? = _; rw [List.getElem?_set_ne (Ne.symm hij)]; exact hh2, er2⟩
          · show g.high = _
            rw [pairs_snoc, List.filter_append, List.filter_cons_of_neg (by simp [between_not_above hbj]), List.filter_nil, List.append_nil, hI.high]
        · refine ⟨{ g with st := Stats.add r g.st d, high := Stats.add r g.high d }, ?_, hI.ranges, hI.len, fun i h0 hh => ?_, hlow, ?_, hst⟩
          · show (PQ.rd g.ranges 0 >>= _) = _
            rw [hI.ranges, PQ.rd_eq 0 _ _ h0l, Res.bind_ok, if_neg hv, er]
            rfl
          · rw [keep i (above_not_between ha)]; exact hI.hists i h0 hh
          · show Stats.add r g.high d = _
            rw [pairs_snoc, List.filter_append, List.filter_cons_of_pos (by exact ha), List.filter_nil, List.map_append, hI.high]; exact (adds_snoc r _ d).symm

/-! ## Every value has one place -/

theorem places : ∀ (ranges : List Rat), ranges.Pairwise (· ≤ ·) → ∀ x, ranges[0]? = some x → ∀ v : Rat,
    (if below ranges v then 1 else 0) + (if above ranges v then 1 else 0) + (List.range (ranges.length - 1)).countP (fun i => between ranges i v) = 1
  | [], _, _, h, _ => by cases h
  | [a], _, x, h, v => by
    simp only [below, above, List.all_cons, List.all_nil, Bool.and_true, List.length_singleton, Nat.sub_self, List.range_zero, List.countP_nil]
    rcases lt_or_ge v a with h | h
    · simp [h]
    · simp [h]
  | a :: b :: rest, hs, x, h, v => by
    obtain ⟨h1, h2⟩ := List.pairwise_cons.1 hs
    have ih := places (b :: rest) h2 b rfl v
    have hab : a ≤ b := h1 b List.mem_cons_self
    have hbl : below (a :: b :: rest) v = decide (v < a) := by
      rw [Bool.eq_iff_iff, decide_eq_true_eq]; exact below_iff hs rfl
    have hbl' : below (b :: rest) v = decide (v < b) := by
      rw [Bool.eq_iff_iff, decide_eq_true_eq]; exact below_iff h2 rfl
    have hab' : above (a :: b :: rest) v = above (b :: rest) v := by
      unfold above
      rw [List.all_cons]
      cases hc : (b :: rest).all (fun x => decide (x ≤ v)) with
      | false => simp
      | true =>
        have := of_decide_eq_true (List.all_eq_true.1 hc b List.mem_cons_self)
        simp; linarith
    have hlen : (a :: b :: rest).length - 1 = ((b :: rest).length - 1) + 1 := by simp
    rw [hlen, List.range_succ_eq_map, List.countP_cons, List.countP_map]
    have e1 : ((fun i => between (a :: b :: rest) i v) ∘ Nat.succ) = fun i => between (b :: rest) i v := by
      funext i
      show between (a :: b :: rest) (i + 1) v = _
      unfold between
      rw [List.getElem?_cons_succ, List.getElem?_cons_succ]
    have e2 : between (a :: b :: rest) 0 v = decide (a ≤ v ∧ v < b) := rfl
    rw [e1, e2, hab', hbl]
    rw [hbl'] at ih
    simp only [decide_eq_true_eq] at ih ⊢
    generalize (if above (b :: rest) v = true then 1 else 0) = c at ih ⊢
    by_cases hva : v < a
    · have hvb : v < b := by linarith
      rw [if_pos hvb] at ih
      rw [if_pos hva, if_neg (fun h : a ≤ v ∧ v < b => by linarith [h.1])]
      omega
    · by_cases hvb : v < b
      · rw [if_pos hvb] at ih
        rw [if_neg hva, if_pos (show a ≤ v ∧ v < b from ⟨not_lt.1 hva, hvb⟩)]
        omega
      · rw [if_neg hvb] at ih
        rw [if_neg hva, if_neg (fun h : a ≤ v ∧ v < b => hvb h.2)]
        omega

theorem sum_countP {β : Type} (p : Nat → β → Bool) : ∀ (is : List Nat) (l : List β), (is.map fun i => l.countP (p i)).sum = (l.map fun v => is.countP fun i => p i v).sum
  | [], l => by
    induction l with
    | nil => rfl
    | cons v l ih => simp only [List.map_cons, List.sum_cons, List.countP_nil, Nat.zero_add] at ih ⊢; exact ih
  | i :: is, l => by
    rw [List.map_cons, List.sum_cons, sum_countP p is l]
    induction l with
    | nil => rfl
    | cons v l ih =>
      simp only [List.map_cons, List.sum_cons, List.countP_cons] at ih ⊢
      omega

theorem places_sum {ranges : List Rat} (hs : ranges.Pairwise (· ≤ ·)) (hne : 0 < ranges.length) (l : List (Rat × Rat)) :
    l.countP (fun p => below ranges p.1) + l.countP (fun p => above ranges p.1) + ((List.range (ranges.length - 1)).map fun i => l.countP fun p => between ranges i p.1).sum = l.length := by
  rw [sum_countP (fun i (p : Rat × Rat) => between ranges i p.1)]
  induction l with
  | nil => rfl
  | cons p l ih =>
    have := places ranges hs _ (List.getElem?_eq_getElem hne) p.1
    simp only [List.countP_cons, List.map_cons, List.sum_cons, List.length_cons]
    omega

end Verif.Histo
