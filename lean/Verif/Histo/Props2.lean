import Verif.Histo.Group
import Verif.Histo.Dbl

/-!
# Properties of histograms that sum up, of groups and of the tolerant comparison

C34 (sums), C35 (groups), C41 (comparison).
-/

namespace Verif.Histo

open Verif Flt

/-! ## C34 -/

/-- C34. In exact arithmetic, if the number of bins is even, the value of bin `k` is the sum of the data that was added with an index in the bin, its count is their
number, and no access leaves the arrays, however often the histogram scaled. A histogram that does not scale (even a growable one) keeps its range. Missing: odd numbers
of bins, see `accum_odd_false`. -/
theorem accum_sums_partial {b : Nat} (hb : 0 < b) (hb' : b < 2 ^ 32) (heven : b % 2 = 0) {low high : Rat} (hlh : low < high) {scal grow : Bool} (h1 : ¬(scal = true ∧ grow = true)) (ops : List Op2) :
    ∃ a0 a, newA id b low high scal grow = .ok a0 ∧ runA id a0 ops = .ok a ∧ a.h.n = b ∧ a.h.bins.length = b ∧ a.val.length = b ∧
      0 < a.h.width ∧ a.h.low + b * a.h.width = a.h.high ∧ a.h.low ≤ low ∧ high ≤ a.h.high ∧
      (∀ k, k < b → a.val[k]? = some (dataIn a.h.low a.h.width b k (pairs ops)).sum ∧ a.h.bins[k]? = some (dataIn a.h.low a.h.width b k (pairs ops)).length) ∧
      a.h.st = Stats.eval id (Stats.adds .new ((pairs ops).map Prod.snd)) ∧
      (scal = true → ∀ p ∈ pairs ops, a.h.low ≤ p.1 ∧ p.1 < a.h.high) ∧ (scal = false → a.h.low = low ∧ a.h.high = high) := by
  obtain ⟨a0, e0, hI0, n0, l0, g0, s0⟩ := newA_ok hb heven hlh h1
  obtain ⟨a, e, hI, n1, l1, g1, s1, f1⟩ := runA_ok hI0 (by rw [n0]; exact hb') ops
  have hn : a.h.n = b := n1.trans n0
  refine ⟨a0, a, e0, e, hn, by rw [hI.bins, tally_length, hn], by rw [hI.val]; unfold sums; rw [tally_length, hn], hI.width, by rw [← hn]; exact hI.span,
    by rw [← l0]; exact l1, by rw [← g0]; exact g1, fun k hk => ?_, hI.number, fun h => hI.inside (s1.trans (s0.trans h)), fun h => ?_⟩
  · have hkey : ((pairs ops).filter fun p => decide (key a.h.low a.h.width a.h.n p.1 = k)) = (pairs ops).filter fun p => inBin a.h.low a.h.width b k p.1 := by
      apply List.filter_congr
      intro p _
      rw [Bool.eq_iff_iff, decide_eq_true_eq, hn]
      exact key_iff hI.width hk p.1
    constructor
    · rw [hI.val]
      unfold sums
      rw [tally_get _ (by omega), at_filter (fun p => key a.h.low a.h.width a.h.n p.1), hkey]
      rfl
    · rw [hI.bins, tally_get _ (by omega), at_count, List.countP_map]
      unfold dataIn
      rw [List.length_map, ← hkey, List.countP_eq_length_filter]
      rfl
  · obtain ⟨q1, q2⟩ := f1 (s0.trans h)
    exact ⟨q1.trans l0, q2.trans g0⟩

/-- A case of the theorem: a scalable histogram. -/
example : (newA id 2 0 4 true false >>= (runA id · [.add 1 10, .add 9 (-3), .add 3 (1 / 2)])).map (fun a => (a.h.low, a.h.high, a.h.bins, a.val)) = .ok (0, 16, [2, 1], [21 / 2, -3]) := by
  decide +kernel

theorem zeroUp_short : ∀ (m i : Nat) (b : List Rat), b.length < i + m → i ≤ b.length → zeroUp 0 i m b = .ub
  | 0, i, b, h, h' => by omega
  | m + 1, i, b, h, h' => by
    rw [zeroUp]
    by_cases hi : i < b.length
    · rw [PQ.wr_eq _ _ _ hi, Res.bind_ok]
      exact zeroUp_short m (i + 1) _ (by rw [List.length_set]; omega) (by rw [List.length_set]; omega)
    · have : PQ.wr b i 0 = .ub := by unfold PQ.wr; rw [if_neg hi]
      rw [this]; rfl

/-- C34. It is false of odd numbers of bins: the constructor itself writes past the end of the array of values. -/
theorem accum_odd_false (r : Rat → Rat) {b : Nat} (hodd : b % 2 = 1) {low high : Rat} (hlh : low ≤ high) {scal grow : Bool} (h1 : ¬(scal = true ∧ grow = true)) :
    newA r b low high scal grow = .ub := by
  have hn : new r b low high scal grow = .ok (reset r ⟨scal, grow, 2 * ((b + 1) / 2), low, high, 0, [], 0, Stats.reset⟩) := by
    unfold new
    rw [show decide (low ≤ high) = true from decide_eq_true hlh, show decide (0 < b) = true from decide_eq_true (by omega), show (!(grow && scal)) = true by cases scal <;> cases grow <;> simp_all]
    rfl
  unfold newA
  rw [hn, Res.bind_ok]
  unfold resetA
  have : zeroUp 0 0 (2 * ((b + 1) / 2)) (List.replicate b (0 : Rat)) = .ub := zeroUp_short _ 0 _ (by rw [List.length_replicate]; omega) (by omega)
  show (zeroUp 0 0 (2 * ((b + 1) / 2)) (List.replicate b (0 : Rat)) >>= _) = _
  rw [this]
  rfl

example : newA id 1 0 4 false false = .ub := by decide +kernel

/-! ## C35 -/

/-- C35. Whatever the kind of the histograms, as long as they take the calls, a call concerns the one histogram whose half-open range holds the value; what is below all
ranges goes to `low`, what is above to `high`. -/
theorem group_routes {α : Type} (r : Rat → Rat) (mk : Nat → Rat → Rat → Res α) (sub : α → Op2 → Res α) {ranges : List Rat} (hso : ranges.Pairwise (· ≤ ·)) {g0 : Group α}
    (e0 : newGroup mk ranges = .ok g0) (hl : g0.hists.length + 1 = ranges.length) (ops : List Op2)
    (hok : ∀ (i : Nat) (h0 : α), g0.hists[i]? = some h0 → ∃ h, subRun sub h0 (ops.filter (concerns ranges i)) = .ok h) :
    ∃ g, runG r sub g0 ops = .ok g ∧
      (∀ (i : Nat) (h0 : α), g0.hists[i]? = some h0 → ∃ h, g.hists[i]? = some h ∧ subRun sub h0 (ops.filter (concerns ranges i)) = .ok h) ∧
      g.low = Stats.eval r (Stats.adds .new (((pairs ops).filter fun p => below ranges p.1).map Prod.snd)) ∧
      g.high = Stats.eval r (Stats.adds .new (((pairs ops).filter fun p => above ranges p.1).map Prod.snd)) ∧
      g.st = Stats.eval r (Stats.adds .new ((pairs ops).map Prod.snd)) := by
  unfold newGroup at e0
  by_cases h2 : 2 ≤ ranges.length
  · rw [show decide (2 ≤ ranges.length) = true from decide_eq_true h2, Res.require_true, Res.bind_ok, Res.bind_eq_ok] at e0
    obtain ⟨hs, _, e0⟩ := e0
    cases e0
    obtain ⟨g, e, hI⟩ := group_ok r sub (g0 := ⟨ranges, hs, Stats.reset, Stats.reset, Stats.reset⟩) hso hl h2 rfl rfl rfl ops hok
    exact ⟨g, e, hI.hists, hI.low, hI.high, hI.st⟩
  · rw [show decide (2 ≤ ranges.length) = false from decide_eq_false h2, Res.require_false] at e0
    cases e0

/-- Histogram `i` of a group is made with the two bounds. -/
theorem mkHists_get {α : Type} {mk : Nat → Rat → Rat → Res α} : ∀ {ranges : List Rat} {k : Nat} {hs : List α}, mkHists mk k ranges = .ok hs →
    (ranges ≠ [] → hs.length + 1 = ranges.length) ∧ ∀ (i : Nat) (h : α), hs[i]? = some h → ∃ a b, ranges[i]? = some a ∧ ranges[i + 1]? = some b ∧ mk (k + i) a b = .ok h
  | [], k, hs, e => by rw [mkHists.eq_def] at e; cases e; exact ⟨fun h => absurd rfl h, fun i h hh => by cases hh⟩
  | [x], k, hs, e => by rw [mkHists.eq_def] at e; cases e; exact ⟨fun _ => rfl, fun i h hh => by cases hh⟩
  | a :: b :: rest, k, hs, e => by
    rw [mkHists] at e
    simp only [Res.bind_eq_ok] at e
    obtain ⟨h0, e0, hs', e1, e2⟩ := e
    cases e2
    obtain ⟨l, g⟩ := mkHists_get e1
    refine ⟨fun _ => ?_, fun i h hh => ?_⟩
    · have := l (by simp)
      simp only [List.length_cons] at this ⊢
      omega
    · cases i with
      | zero => cases hh; exact ⟨a, b, rfl, rfl, e0⟩
      | succ i =>
        obtain ⟨c, d, c1, c2, c3⟩ := g i h hh
        exact ⟨c, d, c1, c2, by rw [show k + (i + 1) = k + 1 + i by omega]; exact c3⟩

/-- The call a uniform histogram gets. -/
def single : Op2 → Op
  | .add v _ => .add v
  | .reset => .reset

theorem subRun_uniform (h : H) : ∀ ops : List Op2, (∀ i d, Op2.add i d ∈ ops → i = d) →
    subRun (stepU id) h ops = run id h (ops.map single)
  | [], _ => rfl
  | o :: ops, hq => by
    have e : stepU id h o = step id h (single o) := by
      cases o with
      | add v d =>
        have := hq v d List.mem_cons_self
        show (Res.require (decide (v = d)) >>= fun _ => add id h v) = _
        rw [show decide (v = d) = true from decide_eq_true this]
        rfl
      | reset => rfl
    rw [subRun, List.map_cons, run, e]
    congr 1
    funext h'
    exact subRun_uniform h' ops fun i d hid => hq i d (List.mem_cons_of_mem _ hid)

theorem vals_pairs (p : Rat → Bool) : ∀ ops : List Op2,
    vals ((ops.filter fun o => match o with | .add v _ => p v | .reset => true).map single) =
      ((pairs ops).filter fun x => p x.1).map Prod.fst := by
  intro ops
  induction ops using List.reverseRecOn with
  | nil => rfl
  | append_singleton ops o ih =>
    rw [List.filter_append, List.map_append, pairs_snoc]
    cases o with
    | reset =>
      rw [List.filter_cons_of_pos (by rfl), List.filter_nil, List.map_cons, List.map_nil, vals_snoc]
      rfl
    | add v d =>
      simp only [List.filter_append, List.map_append]
      cases hp : p v with
      | false =>
        rw [List.filter_cons_of_neg (by simp [hp]), List.filter_nil, List.map_nil, List.append_nil, ih, List.filter_cons_of_neg (by simp [hp])]
        simp
      | true =>
        rw [List.filter_cons_of_pos (by exact hp), List.filter_nil, List.map_cons, List.map_nil, vals_snoc, List.filter_cons_of_pos (by exact hp)]
        rw [ih]
        rfl

/-- C35. In exact arithmetic, a group of uniform histograms over increasing bounds counts every value exactly once: in `low`, in `high`, or in the histogram whose
half-open range holds it, and there in the bin it belongs to. -/
theorem group_counts {ranges : List Rat} (hso : ranges.Pairwise (· < ·)) (h2 : 2 ≤ ranges.length) {bs : Nat → Nat} (hb : ∀ i, 0 < bs i ∧ bs i < 2 ^ 32 - 1) (ops : List Op2)
    (hq : ∀ i d, Op2.add i d ∈ ops → i = d) :
    ∃ g0 g, newGroup (fun i lo hi => new id (bs i) lo hi false false) ranges = .ok g0 ∧ runG id (stepU id) g0 ops = .ok g ∧ g.hists.length + 1 = ranges.length ∧
      g.low.number = (pairs ops).countP (fun p => below ranges p.1) ∧ g.high.number = (pairs ops).countP (fun p => above ranges p.1) ∧
      (∀ (i : Nat) (h : H), g.hists[i]? = some h → ranges[i]? = some h.low ∧ ranges[i + 1]? = some h.high ∧ h.n = 2 * ((bs i + 1) / 2) ∧
        h.bins.sum = (pairs ops).countP (fun p => between ranges i p.1) ∧
        ∀ k, k < h.n → h.bins[k]? = some ((pairs ops).countP fun p => between ranges i p.1 && inBin h.low h.width h.n k p.1)) ∧
      g.st.number = (pairs ops).length ∧ g.low.number + g.high.number + (g.hists.map fun h => h.bins.sum).sum = (pairs ops).length := by
  -- the constructor
  have mkok : ∀ (l : List Rat) (k : Nat), l.Pairwise (· < ·) → ∃ hs, mkHists (fun i lo hi => new id (bs i) lo hi false false) k l = .ok hs := by
    intro l
    induction l with
    | nil => intro k _; exact ⟨[], rfl⟩
    | cons a l ih =>
      intro k hl
      cases l with
      | nil => exact ⟨[], rfl⟩
      | cons b l =>
        obtain ⟨q1, q2⟩ := List.pairwise_cons.1 hl
        obtain ⟨hs, e⟩ := ih (k + 1) q2
        obtain ⟨h0, e0, -⟩ := new_ok (hb k).1 (q1 b List.mem_cons_self) (scal := false) (grow := false) (by simp)
        exact ⟨h0 :: hs, by rw [mkHists, e0, Res.bind_ok, e]; rfl⟩
  obtain ⟨hs, ehs⟩ := mkok ranges 0 hso
  obtain ⟨hlen, hget⟩ := mkHists_get ehs
  have hlen := hlen (by intro h; rw [h] at h2; simp at h2)
  have e0 : newGroup (fun i lo hi => new id (bs i) lo hi false false) ranges = .ok ⟨ranges, hs, Stats.reset, Stats.reset, Stats.reset⟩ := by
    unfold newGroup
    rw [show decide (2 ≤ ranges.length) = true from decide_eq_true h2, Res.require_true, Res.bind_ok, ehs]
    rfl
  -- each histogram
  have hone : ∀ (i : Nat) (h0 : H), hs[i]? = some h0 → ∃ h, subRun (stepU id) h0 (ops.filter (concerns ranges i)) = .ok h ∧ ranges[i]? = some h.low ∧ ranges[i + 1]? = some h.high ∧
      h.n = 2 * ((bs i + 1) / 2) ∧ Inv h (((pairs ops).filter fun p => between ranges i p.1).map Prod.fst) := by
    intro i h0 hh
    obtain ⟨a, b, a1, a2, a3⟩ := hget i h0 hh
    rw [Nat.zero_add] at a3
    have hab : a < b := by
      obtain ⟨hi, rfl⟩ := List.getElem?_eq_some_iff.1 a1
      obtain ⟨hj, rfl⟩ := List.getElem?_eq_some_iff.1 a2
      exact List.pairwise_iff_getElem.1 hso i (i + 1) hi hj (by omega)
    obtain ⟨h0', e0', hI0, n0, l0, g0, s0, w0⟩ := new_ok (hb i).1 hab (scal := false) (grow := false) (by simp)
    have a3 : new id (bs i) a b false false = .ok h0 := a3
    rw [a3] at e0'
    cases e0'
    have hbi := (hb i).2
    obtain ⟨h, e, hI, hR, -⟩ := run_ok hI0 (by rw [n0]; omega) (M := 0) ((ops.filter (concerns ranges i)).map single)
      (fun h => by rw [w0] at h; cases h)
    obtain ⟨f1, f2⟩ := hR.fixed s0 w0
    refine ⟨h, ?_, by rw [f1, l0]; exact a1, by rw [f2, g0]; exact a2, (hR.n w0).trans n0, ?_⟩
    · rw [subRun_uniform _ _ fun i d hid => hq i d (List.mem_of_mem_filter hid)]; exact e
    · have e1 : (fun o => match o with | Op2.add v _ => between ranges i v | .reset => true) = concerns ranges i := by
        funext o; cases o <;> rfl
      have := vals_pairs (between ranges i) ops
      rw [e1] at this
      rw [← this]; exact hI
  obtain ⟨g, e, hI1, hI2, hI3, hI4⟩ := group_routes id (fun i lo hi => new id (bs i) lo hi false false) (stepU id) (List.Pairwise.imp (fun h => le_of_lt h) hso) e0 hlen ops
    (fun i h0 hh => by obtain ⟨h, eh, -⟩ := hone i h0 hh; exact ⟨h, eh⟩)
  have hglen : g.hists.length = hs.length := by
    have := group_ok id (stepU id) (g0 := ⟨ranges, hs, Stats.reset, Stats.reset, Stats.reset⟩) (List.Pairwise.imp (fun h => le_of_lt h) hso) hlen h2 rfl rfl rfl ops
      (fun i h0 hh => by obtain ⟨h, eh, -⟩ := hone i h0 hh; exact ⟨h, eh⟩)
    obtain ⟨g', e', hI'⟩ := this
    rw [e] at e'
    cases e'
    exact hI'.len
  have num : ∀ l : List Rat, (Stats.eval id (Stats.adds .new l)).number = l.length := fun l => by
    rw [(Stats.eval_any id _).1, Stats.values_adds]; rfl
  have hall : ∀ (i : Nat) (h : H), g.hists[i]? = some h → ranges[i]? = some h.low ∧ ranges[i + 1]? = some h.high ∧ h.n = 2 * ((bs i + 1) / 2) ∧
      Inv h (((pairs ops).filter fun p => between ranges i p.1).map Prod.fst) := by
    intro i h hh
    have hi : i < hs.length := by rw [← hglen]; exact (List.getElem?_eq_some_iff.1 hh).1
    obtain ⟨h1, hh1, er1⟩ := hI1 i _ (List.getElem?_eq_getElem hi)
    rw [hh] at hh1; cases hh1
    obtain ⟨h', eh, q⟩ := hone i _ (List.getElem?_eq_getElem hi)
    rw [er1] at eh; cases eh
    exact q
  have hlow : g.low.number = (pairs ops).countP (fun p => below ranges p.1) := by
    rw [hI2, num, List.length_map, List.countP_eq_length_filter]
  have hhigh : g.high.number = (pairs ops).countP (fun p => above ranges p.1) := by
    rw [hI3, num, List.length_map, List.countP_eq_length_filter]
  have hsum : ∀ (i : Nat) (h : H), g.hists[i]? = some h → h.bins.sum = (pairs ops).countP (fun p => between ranges i p.1) := by
    intro i h hh
    obtain ⟨q1, q2, q3, q4⟩ := hall i h hh
    rw [q4.sum.1, List.length_map, List.countP_eq_length_filter]
  refine ⟨_, g, e0, e, by rw [hglen]; exact hlen, hlow, hhigh, fun i h hh => ?_, ?_, ?_⟩
  · obtain ⟨q1, q2, q3, q4⟩ := hall i h hh
    refine ⟨q1, q2, q3, hsum i h hh, fun k hk => ?_⟩
    rw [q4.bins, tally_get _ hk, at_count, List.countP_map, List.countP_filter]
    congr 1
    apply List.countP_congr
    intro p _
    simp only [Function.comp, Bool.and_eq_true, decide_eq_true_eq]
    rw [key_iff q4.width hk, and_comm]
  · rw [hI4, num, List.length_map]
  · have := places_sum (List.Pairwise.imp (fun h => le_of_lt h) hso) (by omega) (pairs ops)
    rw [hlow, hhigh]
    have e2 : (g.hists.map fun h => h.bins.sum) = (List.range (ranges.length - 1)).map fun i => (pairs ops).countP fun p => between ranges i p.1 := by
      apply List.ext_getElem?
      intro i
      by_cases hi : i < g.hists.length
      · rw [List.getElem?_map, List.getElem?_eq_getElem hi, List.getElem?_map, List.getElem?_range (by omega)]
        simp only [Option.map_some]
        rw [hsum i _ (List.getElem?_eq_getElem hi)]
      · rw [List.getElem?_eq_none (by simp; omega), List.getElem?_eq_none (by simp; omega)]
    rw [e2]
    exact this

/-- A case of the theorem. -/
example : ([0, 1, 10] : List Rat).Pairwise (· < ·) ∧ (newGroup (fun _ lo hi => new id 2 lo hi false false) [0, 1, 10] >>=
    (runG id (stepU id) · [.add 0 0, .add 10 10, .add (-1) (-1), .add 9 9, .add 1 1])).map (fun g => (g.low.number, g.high.number, g.hists.map H.bins)) = .ok (1, 1, [[1, 0], [1, 1]]) := by
  decide +kernel

/-! ## C41 -/

theorem eq_self (R : Rounding) {eps : Rat} (he : 0 < eps) (a : Rat) : eq R.rnd eps a a = true := by
  have h0 : R.rnd 0 = 0 := R.exact (by have := isDouble_int 0 (by norm_num); exact_mod_cast this)
  unfold eq
  rw [sub_self, h0, abs_zero]
  split
  · exact decide_eq_true he
  · rw [zero_div, h0]; exact decide_eq_true he

theorem rne_neg (q : Rat) : rne (-q) = -rne q := by
  have hq : q = ⌊q⌋ + Int.fract q := (Int.floor_add_fract q).symm
  have hf0 := Int.fract_nonneg q
  have hf1 := Int.fract_lt_one q
  by_cases h : Int.fract q = 0
  · have e : ⌊-q⌋ = -⌊q⌋ := by
      rw [h, add_zero] at hq
      rw [hq, ← Int.cast_neg, Int.floor_intCast, Int.floor_intCast]
    have f : Int.fract (-q) = 0 := by
      unfold Int.fract; rw [e]; push_cast; unfold Int.fract at h; linarith
    unfold rne
    rw [h, f, e]
    simp
  · have hp : 0 < Int.fract q := lt_of_le_of_ne hf0 (Ne.symm h)
    have e : ⌊-q⌋ = -⌊q⌋ - 1 := by
      rw [Int.floor_eq_iff]
      push_cast
      constructor <;> linarith
    have f : Int.fract (-q) = 1 - Int.fract q := by
      unfold Int.fract; rw [e]; push_cast; ring
    unfold rne
    rw [f, e]
    generalize Int.fract q = d at *
    generalize ⌊q⌋ = n at *
    rcases lt_trichotomy d (1 / 2) with hd | hd | hd
    · simp only [if_pos hd, if_neg (show ¬(1 - d < 1 / 2) by linarith), if_pos (show 1 / 2 < 1 - d by linarith)]; ring
    · simp only [if_neg (show ¬(1 - d < 1 / 2) by linarith), if_neg (show ¬(1 / 2 < 1 - d) by linarith), if_neg (show ¬(d < 1 / 2) by linarith), if_neg (show ¬(1 / 2 < d) by linarith)]
      by_cases hn : n % 2 = 0
      · rw [if_pos hn, if_neg (by omega)]; ring
      · rw [if_neg hn, if_pos (by omega)]; ring
    · simp only [if_neg (show ¬(d < 1 / 2) by linarith), if_pos hd, if_pos (show 1 - d < 1 / 2 by linarith)]; ring

theorem ieee_neg (x : Rat) : ieee.rnd (-x) = -ieee.rnd x := by
  show ieeeRnd (-x) = -ieeeRnd x
  unfold ieeeRnd
  have hu : ulp (-x) = ulp x := by unfold ulp; rw [abs_neg]
  by_cases h : x = 0
  · simp [h]
  · rw [if_neg h, if_neg (neg_ne_zero.2 h), hu, neg_div, rne_neg]
    push_cast; ring

/-- C41. With any positive tolerance, of two (finite) doubles exactly one of `lt`, `eq` and `gt` holds, and `leq` and `geq` are the unions. -/
theorem compare_trichotomy (R : Rounding) {eps : Rat} (he : 0 < eps) (a b : Rat) :
    ((lt R.rnd eps a b = true ∧ eq R.rnd eps a b = false ∧ gt R.rnd eps a b = false) ∨ (lt R.rnd eps a b = false ∧ eq R.rnd eps a b = true ∧ gt R.rnd eps a b = false) ∨
      (lt R.rnd eps a b = false ∧ eq R.rnd eps a b = false ∧ gt R.rnd eps a b = true)) ∧
    (leq R.rnd eps a b = true ↔ lt R.rnd eps a b = true ∨ eq R.rnd eps a b = true) ∧ (geq R.rnd eps a b = true ↔ gt R.rnd eps a b = true ∨ eq R.rnd eps a b = true) := by
  unfold lt gt leq geq
  cases h : eq R.rnd eps a b with
  | true => simp
  | false =>
    have hne : a ≠ b := by
      rintro rfl
      rw [eq_self R he] at h; cases h
    rcases lt_or_gt_of_ne hne with h' | h'
    · simp [h', not_lt.2 (le_of_lt h')]
    · simp [h', not_lt.2 (le_of_lt h')]

/-- C41. `eq` is reflexive and, with the rounding of IEEE 754, symmetric, so that `lt a b` is `gt b a`. -/
theorem compare_symmetric {eps : Rat} (he : 0 < eps) (a b : Rat) :
    eq ieee.rnd eps a a = true ∧ eq ieee.rnd eps a b = eq ieee.rnd eps b a ∧ lt ieee.rnd eps a b = gt ieee.rnd eps b a ∧ leq ieee.rnd eps a b = geq ieee.rnd eps b a := by
  have hs : eq ieee.rnd eps a b = eq ieee.rnd eps b a := by
    unfold eq
    rw [show a - b = -(b - a) by ring, ieee_neg, abs_neg, min_comm]
  refine ⟨eq_self ieee he a, hs, ?_, ?_⟩
  · unfold lt gt; rw [hs]
  · unfold leq geq; rw [hs]

/-- C41. What `eq` means, up to the rounding of the difference and the quotient: in exact arithmetic, numbers other than 0 are equal if they differ by less than `eps` times
the one of smaller magnitude (the header says "relative to larger"), and a number is equal to 0 if it is smaller than `eps`. -/
theorem compare_meaning {eps : Rat} (a b : Rat) : (a ≠ 0 → b ≠ 0 → (eq id eps a b = true ↔ |a - b| < eps * min |a| |b|)) ∧ (eq id eps a 0 = true ↔ |a| < eps) := by
  refine ⟨fun ha hb => ?_, ?_⟩
  · have hm : 0 < min |a| |b| := lt_min (abs_pos.2 ha) (abs_pos.2 hb)
    unfold eq
    rw [if_neg (ne_of_gt hm), decide_eq_true_eq]
    show |a - b| / min |a| |b| < eps ↔ _
    rw [div_lt_iff₀ hm]
  · unfold eq
    rw [abs_zero, min_eq_right (abs_nonneg a), if_pos rfl, decide_eq_true_eq, sub_zero]
    rfl

/-- Without a positive tolerance (`setEpsilonBits(1075)` makes it 0) not even `eq(1, 1)` holds, nor `lt` or `gt`. -/
theorem compare_zero_tolerance : eq id 0 1 1 = false ∧ lt id 0 1 1 = false ∧ gt id 0 1 1 = false := by decide +kernel

example : eq ieee.rnd (1 / 10 ^ 12) 1 (1 + 1 / 2 ^ 45) = true ∧ lt ieee.rnd (1 / 10 ^ 12) 1 (1 + 1 / 2 ^ 35) = true := by decide +kernel

end Verif.Histo
