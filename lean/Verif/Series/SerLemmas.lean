import Mathlib.Tactic.Linarith
import Mathlib.Tactic.Ring
import Mathlib.Tactic.FieldSimp
import Verif.Series.SerSpec
import Verif.PQ.Lemmas
import Verif.Stats.Lemmas

/-!
# Lemmas about series
-/

namespace Verif.Series

open Verif PQ

theorem zeros_ok : ∀ (k i : Nat) (l : List Rat), i + k ≤ l.length → ∃ l', zeros i k l = .ok l' ∧ l'.length = l.length ∧ ∀ j, g 0 l' j = if i ≤ j ∧ j < i + k then 0 else g 0 l j
  | 0, i, l, _ => ⟨l, rfl, rfl, fun j => by rw [if_neg (by omega)]⟩
  | k + 1, i, l, h => by
    obtain ⟨l', e, e1, e2⟩ := zeros_ok k (i + 1) (l.set i 0) (by rw [List.length_set]; omega)
    refine ⟨l', by rw [zeros, wr_eq l i 0 (by omega), Res.bind_ok]; exact e, by rw [e1, List.length_set], fun j => ?_⟩
    rw [e2, g_set 0 l i 0 (by omega)]
    by_cases h1 : i + 1 ≤ j ∧ j < i + 1 + k
    · rw [if_pos h1, if_pos (by omega)]
    · rw [if_neg h1]
      by_cases h2 : j = i
      · rw [if_pos h2, if_pos (by omega)]
      · rw [if_neg h2, if_neg (by omega)]

theorem shift_ok : ∀ (i : Nat) (l : List Rat), i < l.length → ∃ l', shift i l = .ok l' ∧ l'.length = l.length ∧ ∀ j, g 0 l' j = if 1 ≤ j ∧ j ≤ i then g 0 l (j - 1) else g 0 l j
  | 0, l, _ => ⟨l, rfl, rfl, fun j => by rw [if_neg (by omega)]⟩
  | i + 1, l, h => by
    obtain ⟨l', e, e1, e2⟩ := shift_ok i (l.set (i + 1) (g 0 l i)) (by rw [List.length_set]; omega)
    refine ⟨l', by rw [shift, rd_eq 0 l i (by omega), Res.bind_ok, wr_eq l (i + 1) _ h, Res.bind_ok]; exact e, by rw [e1, List.length_set], fun j => ?_⟩
    rw [e2, g_set 0 l _ _ h, g_set 0 l _ _ h]
    by_cases h1 : 1 ≤ j ∧ j ≤ i
    · rw [if_pos h1, if_neg (by omega), if_pos (by omega)]
    · rw [if_neg h1]
      by_cases h2 : j = i + 1
      · rw [if_pos h2, if_pos (by omega), h2]; rfl
      · rw [if_neg h2, if_neg (by omega)]

theorem products_ok (v : Rat) (a : List Rat) : ∀ (k i : Nat) (l : List Rat), i + k ≤ l.length → i + k ≤ a.length →
    ∃ l', products id v a i k l = .ok l' ∧ l'.length = l.length ∧ ∀ j, g 0 l' j = if i ≤ j ∧ j < i + k then g 0 l j + v * g 0 a j else g 0 l j
  | 0, i, l, _, _ => ⟨l, rfl, rfl, fun j => by rw [if_neg (by omega)]⟩
  | k + 1, i, l, h, ha => by
    obtain ⟨l', e, e1, e2⟩ := products_ok v a k (i + 1) (l.set i (g 0 l i + v * g 0 a i)) (by rw [List.length_set]; omega) (by omega)
    refine ⟨l', by rw [products, rd_eq 0 a i (by omega), Res.bind_ok, rd_eq 0 l i (by omega), Res.bind_ok, wr_eq l i _ (by omega), Res.bind_ok]; exact e, by rw [e1, List.length_set], fun j => ?_⟩
    rw [e2, g_set 0 l i _ (by omega)]
    by_cases h1 : i + 1 ≤ j ∧ j < i + 1 + k
    · rw [if_pos h1, if_neg (show ¬ j = i by omega), if_pos (by omega)]
    · rw [if_neg h1]
      by_cases h2 : j = i
      · rw [if_pos h2, if_pos (by omega), h2]
      · rw [if_neg h2, if_neg (by omega)]

theorem firsts_ok (v : Rat) : ∀ (k i : Nat) (l : List Rat), i + k ≤ l.length →
    ∃ l', firsts id v i k l = .ok l' ∧ l'.length = l.length ∧ ∀ j, g 0 l' j = if i ≤ j ∧ j < i + k then g 0 l j + v else g 0 l j
  | 0, i, l, _ => ⟨l, rfl, rfl, fun j => by rw [if_neg (by omega)]⟩
  | k + 1, i, l, h => by
    obtain ⟨l', e, e1, e2⟩ := firsts_ok v k (i + 1) (l.set i (g 0 l i + v)) (by rw [List.length_set]; omega)
    refine ⟨l', by rw [firsts, rd_eq 0 l i (by omega), Res.bind_ok, wr_eq l i _ (by omega), Res.bind_ok]; exact e, by rw [e1, List.length_set], fun j => ?_⟩
    rw [e2, g_set 0 l i _ (by omega)]
    by_cases h1 : i + 1 ≤ j ∧ j < i + 1 + k
    · rw [if_pos h1, if_neg (show ¬ j = i by omega), if_pos (by omega)]
    · rw [if_neg h1]
      by_cases h2 : j = i
      · rw [if_pos h2, if_pos (by omega), h2]
      · rw [if_neg h2, if_neg (by omega)]

theorem lasts_ok (a : List Rat) : ∀ (k i : Nat) (x : Rat), i + k ≤ a.length → lasts id a i k x = .ok (x + ∑ t ∈ Finset.range k, g 0 a (i + t))
  | 0, i, x, _ => by simp [lasts]
  | k + 1, i, x, h => by
    rw [lasts, rd_eq 0 a i (by omega), Res.bind_ok, lasts_ok a k (i + 1) _ (by omega), Finset.sum_range_succ']
    congr 1
    have : ∀ t, g 0 a (i + 1 + t) = g 0 a (i + (t + 1)) := fun t => by rw [show i + 1 + t = i + (t + 1) by omega]
    simp only [this, Nat.add_zero, id]
    ring

/-- What is kept up. -/
structure InvS (s : Ser) (xs : List Rat) : Prop where
  lag : 0 < s.maxLag ∧ s.maxLag < 2 ^ 32 - 1
  l1 : s.samples.length = s.maxLag + 1
  l2 : s.product.length = s.maxLag + 1
  l3 : s.first.length = s.maxLag + 1
  no : s.no = xs.length
  samples : ∀ i, i ≤ s.maxLag → g 0 s.samples i = if i < xs.length then g 0 xs (xs.length - 1 - i) else 0
  product : ∀ i, i ≤ s.maxLag → g 0 s.product i = ∑ t ∈ Finset.range (xs.length - i), g 0 xs t * g 0 xs (t + i)
  first : ∀ i, i ≤ s.maxLag → g 0 s.first i = ∑ t ∈ Finset.range i, g 0 xs t
  st : s.st = Stats.eval id (Stats.adds .new xs)

theorem g_snoc (xs : List Rat) (v : Rat) (j : Nat) : g 0 (xs ++ [v]) j = if j = xs.length then v else g 0 xs j := by
  unfold g
  rw [List.getD_eq_getElem?_getD, List.getD_eq_getElem?_getD]
  by_cases h : j < xs.length
  · rw [List.getElem?_append_left h, if_neg (by omega)]
  · rw [List.getElem?_append_right (by omega)]
    by_cases h' : j = xs.length
    · rw [if_pos h', h']; simp
    · rw [if_neg h', List.getElem?_eq_none (by simp; omega), List.getElem?_eq_none (by omega)]

theorem g_out (xs : List Rat) {j : Nat} (h : xs.length ≤ j) : g 0 xs j = 0 := by
  unfold g; rw [List.getD_eq_getElem?_getD, List.getElem?_eq_none h]; rfl

theorem evalSer_snoc (l : List Rat) (v : Rat) : Stats.eval id (Stats.adds .new (l ++ [v])) = Stats.add id (Stats.eval id (Stats.adds .new l)) v := by
  unfold Stats.adds
  rw [List.foldl_append]
  rfl

theorem resetSer_ok {s : Ser} (h : 0 < s.maxLag ∧ s.maxLag < 2 ^ 32 - 1) (l1 : s.samples.length = s.maxLag + 1) (l2 : s.product.length = s.maxLag + 1) (l3 : s.first.length = s.maxLag + 1) :
    ∃ s', resetSer s = .ok s' ∧ InvS s' [] ∧ s'.maxLag = s.maxLag := by
  obtain ⟨a, a1, a2, a3⟩ := zeros_ok (s.maxLag + 1) 0 s.samples (by omega)
  obtain ⟨b, b1, b2, b3⟩ := zeros_ok (s.maxLag + 1) 0 s.product (by omega)
  obtain ⟨c, c1, c2, c3⟩ := zeros_ok (s.maxLag + 1) 0 s.first (by omega)
  refine ⟨{ s with samples := a, product := b, first := c, no := 0, st := Stats.reset }, ?_, ?_, rfl⟩
  · unfold resetSer
    rw [a1, Res.bind_ok, b1, Res.bind_ok, c1]
    rfl
  · refine ⟨h, a2.trans l1, b2.trans l2, c2.trans l3, rfl, fun i hi => ?_, fun i hi => ?_, fun i hi => ?_, rfl⟩
    · have hi : i ≤ s.maxLag := hi
      show g 0 a i = _
      rw [a3, if_pos (by omega)]; rfl
    · have hi : i ≤ s.maxLag := hi
      show g 0 b i = _
      rw [b3, if_pos (by omega), List.length_nil, Nat.zero_sub]; rfl
    · have hi : i ≤ s.maxLag := hi
      show g 0 c i = _
      rw [c3, if_pos (by omega), Finset.sum_eq_zero]
      intro t _; exact g_out _ (Nat.zero_le _)

theorem addSer_ok {s : Ser} {xs : List Rat} (h : InvS s xs) (hb : xs.length + 1 < 2 ^ 32) (v : Rat) : ∃ s', addSer id s v = .ok s' ∧ InvS s' (xs ++ [v]) ∧ s'.maxLag = s.maxLag := by
  obtain ⟨a0, e0, m0, n0⟩ := shift_ok s.maxLag s.samples (by rw [h.l1]; omega)
  have e0' : wr a0 0 v = .ok (a0.set 0 v) := wr_eq a0 0 v (by rw [m0, h.l1]; omega)
  have ha : ∀ i, i ≤ s.maxLag → g 0 (a0.set 0 v) i = if i < xs.length + 1 then g 0 (xs ++ [v]) (xs.length - i) else 0 := by
    intro i hi
    rw [g_set 0 a0 0 v (by rw [m0, h.l1]; omega), n0, g_snoc]
    by_cases h0 : i = 0
    · rw [if_pos h0, if_pos (by omega), if_pos (by omega)]
    · rw [if_neg h0, if_pos (by omega), h.samples _ (by omega)]
      by_cases h1 : i < xs.length + 1
      · rw [if_pos (by omega), if_pos h1, if_neg (by omega), show xs.length - 1 - (i - 1) = xs.length - i by omega]
      · rw [if_neg (by omega), if_neg h1]
  have hal : (a0.set 0 v).length = s.maxLag + 1 := by rw [List.length_set, m0, h.l1]
  have hlen : (xs ++ [v]).length = xs.length + 1 := by simp
  have hprod : ∀ i, i ≤ xs.length → i ≤ s.maxLag → g 0 s.product i + v * g 0 (a0.set 0 v) i = ∑ t ∈ Finset.range ((xs ++ [v]).length - i), g 0 (xs ++ [v]) t * g 0 (xs ++ [v]) (t + i) := by
    intro i hi hi'
    rw [hlen, show xs.length + 1 - i = xs.length - i + 1 by omega, Finset.sum_range_succ, h.product i hi', ha i hi', if_pos (by omega)]
    congr 1
    · apply Finset.sum_congr rfl
      intro t ht
      have := Finset.mem_range.1 ht
      rw [g_snoc, g_snoc, if_neg (by omega), if_neg (by omega)]
    · rw [show xs.length - i + i = xs.length by omega, g_snoc xs v xs.length, if_pos rfl]; ring
  have hprod0 : ∀ i, xs.length < i → i ≤ s.maxLag → g 0 s.product i = ∑ t ∈ Finset.range ((xs ++ [v]).length - i), g 0 (xs ++ [v]) t * g 0 (xs ++ [v]) (t + i) := by
    intro i hi hi'
    rw [h.product i hi', hlen, show xs.length - i = 0 by omega, show xs.length + 1 - i = 0 by omega]
    rfl
  have hfirst : ∀ i, i ≤ s.maxLag → (∑ t ∈ Finset.range i, g 0 (xs ++ [v]) t) = if xs.length < i then g 0 s.first i + v else g 0 s.first i := by
    intro i hi
    rw [h.first i hi]
    have e : ∀ t, g 0 (xs ++ [v]) t = g 0 xs t + if t = xs.length then v else 0 := fun t => by
      rw [g_snoc]
      by_cases ht : t = xs.length
      · rw [if_pos ht, if_pos ht, g_out xs (by omega)]; ring
      · rw [if_neg ht, if_neg ht]; ring
    simp only [e]
    rw [Finset.sum_add_distrib, Finset.sum_ite_eq']
    by_cases hi' : xs.length < i
    · rw [if_pos hi', if_pos (Finset.mem_range.2 hi')]
    · rw [if_neg hi', if_neg (by rw [Finset.mem_range]; exact hi'), add_zero]
  have hno := h.no
  have hmod : (s.no + 1) % 2 ^ 32 = (xs ++ [v]).length := by rw [hno, hlen, Nat.mod_eq_of_lt hb]
  by_cases hc : s.no < s.maxLag
  · obtain ⟨p, p1, p2, p3⟩ := products_ok v (a0.set 0 v) (s.no + 1) 0 s.product (by rw [h.l2]; omega) (by rw [hal]; omega)
    obtain ⟨f, f1, f2, f3⟩ := firsts_ok v (s.maxLag - s.no) (s.no + 1) s.first (by rw [h.l3]; omega)
    refine ⟨{ s with samples := a0.set 0 v, product := p, first := f, no := (s.no + 1) % 2 ^ 32, st := Stats.add id s.st v }, ?_, ?_, rfl⟩
    · unfold addSer
      rw [e0, Res.bind_ok, e0', Res.bind_ok, if_pos hc, p1, Res.bind_ok, f1]
      rfl
    · refine ⟨h.lag, hal, p2.trans h.l2, f2.trans h.l3, hmod, fun i hi => ?_, fun i hi => ?_, fun i hi => ?_, ?_⟩
      · show g 0 (a0.set 0 v) i = _
        rw [ha i hi, hlen]; rfl
      · have hi : i ≤ s.maxLag := hi
        show g 0 p i = _
        rw [p3]
        by_cases hx : i ≤ xs.length
        · rw [if_pos (by omega), hprod i hx hi]
        · rw [if_neg (by omega), hprod0 i (by omega) hi]
      · have hi : i ≤ s.maxLag := hi
        show g 0 f i = _
        rw [f3, hfirst i hi]
        by_cases hx : xs.length < i
        · rw [if_pos (by omega), if_pos hx]
        · rw [if_neg (by omega), if_neg hx]
      · show Stats.add id s.st v = _
        rw [evalSer_snoc, h.st]
  · obtain ⟨p, p1, p2, p3⟩ := products_ok v (a0.set 0 v) (s.maxLag + 1) 0 s.product (by rw [h.l2]; omega) (by rw [hal]; omega)
    refine ⟨{ s with samples := a0.set 0 v, product := p, no := (s.no + 1) % 2 ^ 32, st := Stats.add id s.st v }, ?_, ?_, rfl⟩
    · unfold addSer
      rw [e0, Res.bind_ok, e0', Res.bind_ok, if_neg hc, p1]
      rfl
    · refine ⟨h.lag, hal, p2.trans h.l2, h.l3, hmod, fun i hi => ?_, fun i hi => ?_, fun i hi => ?_, ?_⟩
      · show g 0 (a0.set 0 v) i = _
        rw [ha i hi, hlen]; rfl
      · have hi : i ≤ s.maxLag := hi
        show g 0 p i = _
        rw [p3, if_pos (by omega), hprod i (by omega) hi]
      · have hi : i ≤ s.maxLag := hi
        show g 0 s.first i = _
        rw [hfirst i hi, if_neg (by omega)]
      · show Stats.add id s.st v = _
        rw [evalSer_snoc, h.st]

theorem valuesSer_snoc (ops : List SerOp) (o : SerOp) : valuesSer (ops ++ [o]) = match o with | .add v => valuesSer ops ++ [v] | .reset => [] := by
  unfold valuesSer; rw [List.foldl_append]; cases o <;> rfl

theorem valuesSer_le (ops : List SerOp) : (valuesSer ops).length ≤ ops.length := by
  induction ops using List.reverseRecOn with
  | nil => exact le_refl _
  | append_singleton ops o ih =>
    rw [valuesSer_snoc]
    cases o with
    | add v => simp; omega
    | reset => simp

theorem runSer_append (r : Rat → Rat) (s : Ser) (a b : List SerOp) : runSer r s (a ++ b) = runSer r s a >>= fun s => runSer r s b := by
  induction a generalizing s with
  | nil => rfl
  | cons o a ih =>
    cases o with
    | add v =>
      rw [List.cons_append, runSer, runSer, Res.bind_assoc']
      congr 1; funext s'; exact ih s'
    | reset =>
      rw [List.cons_append, runSer, runSer, Res.bind_assoc']
      congr 1; funext s'; exact ih s'

theorem runSer_ok {s0 : Ser} (h0 : InvS s0 []) : ∀ ops : List SerOp, ops.length < 2 ^ 32 → ∃ s, runSer id s0 ops = .ok s ∧ InvS s (valuesSer ops) ∧ s.maxLag = s0.maxLag := by
  intro ops
  induction ops using List.reverseRecOn with
  | nil => intro _; exact ⟨s0, rfl, h0, rfl⟩
  | append_singleton ops o ih =>
    intro hb
    rw [List.length_append, List.length_singleton] at hb
    obtain ⟨s, e, hI, hm⟩ := ih (by omega)
    rw [runSer_append, e, Res.bind_ok, valuesSer_snoc]
    cases o with
    | add v =>
      obtain ⟨s', e', hI', hm'⟩ := addSer_ok hI (by have := valuesSer_le ops; omega) v
      exact ⟨s', by rw [runSer, e', Res.bind_ok]; rfl, hI', hm'.trans hm⟩
    | reset =>
      obtain ⟨s', e', hI', hm'⟩ := resetSer_ok hI.lag hI.l1 hI.l2 hI.l3
      exact ⟨s', by rw [runSer, e', Res.bind_ok]; rfl, hI', hm'.trans hm⟩

theorem sum_g (xs : List Rat) : xs.sum = ∑ t ∈ Finset.range xs.length, g 0 xs t := by
  induction xs using List.reverseRecOn with
  | nil => rfl
  | append_singleton xs v ih =>
    rw [List.sum_append, ih, List.length_append, List.length_singleton, Finset.sum_range_succ, g_snoc, if_pos rfl]
    congr 1
    · apply Finset.sum_congr rfl
      intro t ht
      have := Finset.mem_range.1 ht
      rw [g_snoc, if_neg (by omega)]
    · simp

/-- The value in terms of sums. -/
theorem autocovariance_ok {s : Ser} {xs : List Rat} (h : InvS s xs) {lag : Nat} (hl : lag ≤ s.maxLag) (hn : 0 < xs.length) :
    autocovariance id s lag = .ok (some (((∑ t ∈ Finset.range (xs.length - lag), g 0 xs t * g 0 xs (t + lag)) -
      meanOf xs.length (g 0 xs) * (xs.sum + xs.sum - (∑ i ∈ Finset.range lag, if i < xs.length then g 0 xs (xs.length - 1 - i) else 0) - ∑ t ∈ Finset.range lag, g 0 xs t) +
      meanOf xs.length (g 0 xs) * meanOf xs.length (g 0 xs) * ((xs.length + 2 ^ 32 + 2 ^ 32 - lag - 1) % 2 ^ 32 : Nat)) / xs.length +
      meanOf xs.length (g 0 xs) * meanOf xs.length (g 0 xs) / xs.length)) := by
  have hlast : lasts id s.samples 0 lag 0 = .ok (∑ i ∈ Finset.range lag, if i < xs.length then g 0 xs (xs.length - 1 - i) else 0) := by
    rw [lasts_ok s.samples lag 0 0 (by rw [h.l1]; omega), zero_add]
    congr 1
    apply Finset.sum_congr rfl
    intro t ht
    have := Finset.mem_range.1 ht
    rw [Nat.zero_add, h.samples t (by omega)]
  have hsum : s.st.sum = xs.sum := by
    rw [h.st, (Stats.eval_sums _).1, Stats.values_adds]; rfl
  have hnum : s.st.number = xs.length := by
    rw [h.st, (Stats.eval_any id _).1, Stats.values_adds]; rfl
  have hmean : Stats.mean id s.st = meanOf xs.length (g 0 xs) := by
    unfold Stats.mean meanOf
    rw [if_neg (by omega), hsum, hnum, sum_g]; rfl
  unfold autocovariance
  rw [show decide (lag ≤ s.maxLag) = true from decide_eq_true hl, Res.require_true, Res.bind_ok, hlast, Res.bind_ok, rd_eq 0 s.product lag (by rw [h.l2]; omega), Res.bind_ok,
    rd_eq 0 s.first lag (by rw [h.l3]; omega), Res.bind_ok]
  simp only []
  rw [if_neg (by rw [h.no]; omega), h.product lag hl, h.first lag hl, hmean, h.no, hsum]
  rfl

end Verif.Series
