import Verif.Quantile.PrintSpec
import Verif.Quantile.Lemmas7

/-! # Printed quantiles: lemmas -/

namespace Verif.Quantile

open Verif

variable {V : Type} [LinearOrder V]

/-- `s` is a sketch of `vals` with an error of `e`, that was not given more than it was made for. -/
def Holds (c : Consts V) (vals : List V) (e : Rat) (s : Sk V) : Prop :=
  ∃ h ε, eval c h = .ok s ∧ Sane h ∧ Good (Covers ε) h ∧ values h = vals ∧ e = (depth h + 1) * ε ∧ vals.length ≤ bound h

theorem Holds.count {c : Consts V} {vals : List V} {e : Rat} {s : Sk V} (h : Holds c vals e s) : s.count = vals.length := by
  obtain ⟨h, ε, he, hs, -, rfl, -⟩ := h
  obtain ⟨s', xl, xh, e', m⟩ := eval_ok c h hs
  rw [he] at e'
  obtain rfl := Res.ok.inj e'
  exact m.count

/-- Asking for a quantile keeps a sketch a sketch of the same values. -/
theorem Holds.ask {c : Consts V} (R : Flt.Rounding) {vals : List V} {e : Rat} {s : Sk V} (h : Holds c vals e s) (hne : vals ≠ []) {q : Rat} (h0 : 0 ≤ q) (h1 : q ≤ 1) :
    ∃ s' x, getQuantile c R s q false = .ok (s', some x) ∧ Holds c vals e s' ∧ Around vals q e x := by
  obtain ⟨h, ε, he, hs, hg, rfl, rfl, hb⟩ := h
  obtain ⟨s1, s', x, j, e1, e2, a1, a2, a3⟩ := getQuantile_pos c R hs hne h0 h1 (allow := false) (Or.inl hb) hg
  rw [he] at e1
  obtain rfl := Res.ok.inj e1
  refine ⟨s', x, e2, ⟨.query h (targetIndex R (values h).length q) false, ε, ?_, ⟨hs, Or.inl hb, fun _ => (targetIndex_ok R (List.length_pos_iff.2 hne) h0 h1).1⟩,
    hg, rfl, rfl, hb⟩, j, a1, a2, a3⟩
  have hc : s.count = (values h).length := Holds.count ⟨h, ε, he, hs, hg, rfl, rfl, hb⟩
  have hpos := List.length_pos_iff.2 hne
  unfold getQuantile at e2
  rw [if_neg (by rw [hc]; omega)] at e2
  obtain ⟨-, -, e2⟩ := Res.bind_eq_ok.1 e2
  obtain ⟨-, -, e2⟩ := Res.bind_eq_ok.1 e2
  rw [hc] at e2
  show (eval c h >>= fun s => query c s _ false >>= fun r => pure r.1) = _
  rw [he, Res.bind_ok, e2]
  rfl

/-! ## The ranges -/

/-- The error of the `k`-th of the fractions `1/n`, `2/n`, … as the loop adds them up. -/
def Err (n k : Nat) (q : Rat) : Prop := |q - k / n| ≤ k * (5 / 2) / 2 ^ 53

theorem err_first (R : Flt.Rounding) {n : Nat} (hn : 1 ≤ n) : Err n 1 (R.rnd (1 / n)) := by
  have h := R.err (1 / n)
  have hn' : (1 : Rat) ≤ n := by exact_mod_cast hn
  have h1 : |(1 : Rat) / n| ≤ 1 := by
    rw [abs_of_pos (by positivity), div_le_one (by linarith)]; exact hn'
  unfold Err
  push_cast
  refine h.trans ?_
  gcongr
  linarith

theorem err_next (R : Flt.Rounding) {n k : Nat} (hn : n ≤ 3000) (hk : k + 1 ≤ n) {q : Rat} (h : Err n k q) : Err n (k + 1) (R.rnd (q + R.rnd (1 / n))) := by
  have hn1 : (1 : Rat) ≤ n := by exact_mod_cast (by omega : 1 ≤ n)
  have hn3 : (n : Rat) ≤ 3000 := by exact_mod_cast hn
  have hk3 : (k : Rat) + 1 ≤ n := by exact_mod_cast hk
  have hk0 : (0 : Rat) ≤ k := Nat.cast_nonneg _
  have hs := err_first R (show 1 ≤ n by omega)
  have hs' := R.err (1 / n)
  have hinv : (0 : Rat) < 1 / n := by positivity
  have hinv1 : (1 : Rat) / n ≤ 1 := by rw [div_le_one (by linarith)]; exact hn1
  rw [abs_of_pos hinv] at hs'
  generalize R.rnd (1 / n) = s at *
  have hr := R.err (q + s)
  unfold Err at h ⊢
  have hsum : ((k + 1 : Nat) : Rat) / n = k / n + 1 / n := by push_cast; ring
  have hle1 : (k : Rat) / n + 1 / n ≤ 1 := by
    rw [← add_div, div_le_one (by linarith)]; exact hk3
  have hkn0 : (0 : Rat) ≤ k / n := by positivity
  have hs'' : |s - 1 / n| ≤ 1 / 2 ^ 53 := hs'.trans (by gcongr)
  have hB : (k : Rat) * (5 / 2) / 2 ^ 53 ≤ 1 / 20 := by
    rw [div_le_iff₀ (by positivity)]
    norm_num
    linarith
  rw [abs_le] at h hs''
  rw [hsum]
  clear hsum hs hs' hn hk hn1 hn3 hk3 hk0
  generalize (k : Rat) / n = x at *
  generalize (1 : Rat) / n = y at *
  have habs : |q + s| ≤ 11 / 10 := by
    rw [abs_le]
    constructor <;> norm_num at h hs'' hB ⊢ <;> linarith [h.1, h.2, hs''.1, hs''.2]
  have hr' : |R.rnd (q + s) - (q + s)| ≤ 11 / 10 / 2 ^ 53 := hr.trans (by gcongr)
  rw [abs_le] at hr'
  rw [abs_le]
  have : (((k + 1 : Nat) : Rat)) * (5 / 2) / 2 ^ 53 = k * (5 / 2) / 2 ^ 53 + 5 / 2 / 2 ^ 53 := by push_cast; ring
  rw [this]
  generalize (k : Rat) * (5 / 2) / 2 ^ 53 = K at *
  constructor <;> norm_num at hs'' hr' ⊢ <;> linarith [h.1, h.2, hs''.1, hs''.2, hr'.1, hr'.2]

theorem err_small {n k : Nat} (hn : n ≤ 3000) (hk : k ≤ n) {q : Rat} (h : Err n k q) : |q - k / n| ≤ 834 / 10 ^ 15 := by
  refine h.trans ?_
  have hk3 : (k : Rat) ≤ 3000 := by exact_mod_cast hk.trans hn
  rw [div_le_iff₀ (by positivity)]
  norm_num
  linarith

/-- The last fraction is equal to 1 as far as `Double::lt` can tell. -/
theorem lt_last (R : Flt.Rounding) {eps : Rat} (he : 99 / 10 ^ 14 ≤ eps) {q : Rat} (h : |q - 1| ≤ 834 / 10 ^ 15) : Histo.lt R.rnd eps q 1 = false := by
  unfold Histo.lt
  by_cases hq : q < 1
  · rw [Bool.and_eq_false_iff]
    right
    rw [Bool.not_eq_false']
    unfold Histo.eq
    have h2 := abs_le.1 h
    have hq0 : (9 : Rat) / 10 ≤ q := by norm_num at h2 ⊢; linarith [h2.1]
    have hm : min |q| |(1 : Rat)| = q := by rw [abs_of_pos (by linarith), abs_one, min_eq_left (le_of_lt hq)]
    rw [hm, if_neg (by linarith), decide_eq_true_eq]
    have h3 := R.err (q - 1)
    generalize R.rnd (q - 1) = d at *
    have hd : |d| ≤ 835 / 10 ^ 15 := by
      rw [abs_le] at h3 ⊢
      have : |q - 1| / 2 ^ 53 ≤ 1 / 10 ^ 15 := by
        rw [div_le_iff₀ (by positivity)]; norm_num at h ⊢; linarith
      norm_num at h2 h3 this ⊢
      constructor <;> linarith [h2.1, h2.2, h3.1, h3.2]
    have hdq : |d| / q ≤ 940 / 10 ^ 15 := by
      rw [div_le_iff₀ (by linarith)]
      norm_num at hd ⊢
      linarith
    have hdq0 : 0 ≤ |d| / q := by positivity
    have h4 := R.err (|d| / q)
    rw [abs_of_nonneg hdq0] at h4
    generalize |d| / q = x at *
    rw [abs_le] at h4
    have : x / 2 ^ 53 ≤ 1 / 10 ^ 15 := by
      rw [div_le_iff₀ (by positivity)]; norm_num at hdq ⊢; linarith
    norm_num at h4 hdq this he ⊢
    linarith [h4.2]
  · simp [hq]

/-- The fractions before it are less than 1. -/
theorem lt_before (R : Flt.Rounding) {eps : Rat} (he : eps ≤ 1 / 10000) {q : Rat} (h0 : 0 < q) (h : q ≤ 1 - 1 / 3001) : Histo.lt R.rnd eps q 1 = true := by
  unfold Histo.lt
  have hq : q < 1 := by norm_num at h; linarith
  rw [Bool.and_eq_true, decide_eq_true_eq]
  refine ⟨hq, ?_⟩
  rw [Bool.not_eq_true']
  unfold Histo.eq
  have hm : min |q| |(1 : Rat)| = q := by rw [abs_of_pos h0, abs_one, min_eq_left (le_of_lt hq)]
  rw [hm, if_neg (by linarith), decide_eq_false_iff_not, not_lt]
  have h3 := R.err (q - 1)
  have ha : |q - 1| = 1 - q := by rw [abs_of_neg (by linarith)]; ring
  rw [ha] at h3
  generalize R.rnd (q - 1) = d at *
  have hd : 1 / 4000 ≤ |d| := by
    have hx : (1 - q) / 2 ^ 53 ≤ 1 / 10 ^ 15 := by
      rw [div_le_iff₀ (by positivity)]; norm_num; linarith
    rw [abs_le] at h3
    have : -d ≤ |d| := neg_le_abs d
    norm_num at h h3 hx ⊢
    linarith [h3.2]
  have hdq : 1 / 4000 ≤ |d| / q := by
    rw [le_div_iff₀ h0]
    nlinarith
  have hmono := R.mono (show (1 : Rat) / 4096 ≤ |d| / q by linarith)
  rw [R.exact (x := 1 / 4096) ⟨1, -12, by norm_num, by norm_num⟩] at hmono
  linarith

/-- What one printed row says. -/
def RowOk (vals : List V) (e : Rat) (r : Row V) : Prop := 0 ≤ r.q ∧ r.q ≤ 1 ∧ ∃ x, r.value = some x ∧ Around vals r.q e x

theorem rangesFrom_ok (c : Consts V) (R : Flt.Rounding) {eps : Rat} (he : 99 / 10 ^ 14 ≤ eps) (he' : eps ≤ 1 / 10000) {n : Nat} (hn : n ≤ 3000) {vals : List V} (hne : vals ≠ [])
    {e : Rat} : ∀ (m k fuel : Nat) (q : Rat) (s : Sk V), 1 ≤ k → k + m = n → m < fuel → Err n k q → Holds c vals e s →
      ∃ s' rows, rangesFrom c R eps (R.rnd (1 / n)) fuel q s = .ok (s', rows) ∧ Holds c vals e s' ∧
        List.Forall₂ (fun i r => |r.q - (i : Rat) / n| ≤ 834 / 10 ^ 15 ∧ r.percent = R.rnd (r.q * 100) ∧ RowOk vals e r) (List.range' k m) rows := by
  intro m
  induction m with
  | zero =>
    intro k fuel q s hk hm hf hq hs
    obtain ⟨fuel, rfl⟩ : ∃ f, fuel = f + 1 := ⟨fuel - 1, by omega⟩
    have hn0 : (n : Rat) ≠ 0 := by exact_mod_cast (by omega : n ≠ 0)
    have hlt : Histo.lt R.rnd eps q 1 = false := by
      refine lt_last R he ?_
      have := err_small hn (by omega) hq
      rwa [show (k : Rat) / n = 1 by rw [show k = n by omega]; exact div_self hn0] at this
    refine ⟨s, [], ?_, hs, .nil⟩
    rw [rangesFrom, hlt]
    rfl
  | succ m ih =>
    intro k fuel q s hk hm hf hq hs
    obtain ⟨fuel, rfl⟩ : ∃ f, fuel = f + 1 := ⟨fuel - 1, by omega⟩
    have hsm := err_small hn (by omega) hq
    have hn1 : (1 : Rat) ≤ n := by exact_mod_cast (by omega : 1 ≤ n)
    have hn3 : (n : Rat) ≤ 3000 := by exact_mod_cast hn
    have hlo : 1 / 3000 ≤ (k : Rat) / n := by
      rw [div_le_div_iff₀ (by norm_num) (by linarith)]
      have : (1 : Rat) ≤ k := by exact_mod_cast hk
      linarith
    have hhi : (k : Rat) / n ≤ 1 - 1 / 3000 := by
      rw [div_le_iff₀ (by linarith)]
      have : (k : Rat) + 1 ≤ n := by exact_mod_cast (by omega : k + 1 ≤ n)
      linarith
    rw [abs_le] at hsm
    have hq0 : 0 < q := by norm_num at hsm hlo; linarith [hsm.1]
    have hq1 : q ≤ 1 - 1 / 3001 := by norm_num at hsm hhi ⊢; linarith [hsm.2]
    obtain ⟨s1, x, e1, hs1, hx⟩ := hs.ask R hne (le_of_lt hq0) (by linarith)
    obtain ⟨s2, rows, e2, hs2, hr⟩ := ih (k + 1) fuel _ s1 (by omega) (by omega) (by omega) (err_next R hn (by omega) hq) hs1
    refine ⟨s2, ⟨q, R.rnd (q * 100), some x⟩ :: rows, ?_, hs2, .cons ⟨err_small hn (by omega) hq, rfl, le_of_lt hq0, by linarith, x, rfl, hx⟩ hr⟩
    rw [rangesFrom, lt_before R he' hq0 hq1, if_pos rfl, e1, Res.bind_ok]
    simp only [e2, Res.bind_ok, Res.pure_eq]

/-! ## The tails -/

/-- The first `tail_frac` of each round. -/
def tailAt : Nat → Rat
  | 0 => Flt.ieee.rnd (1 / 10)
  | j + 1 => Flt.ieee.rnd (Flt.ieee.rnd (tailAt j / 2) / 5)

/-- Rounds 0 to 13, with the smallest number of values that each is for. -/
theorem tail_table : ∀ j ∈ List.range 14,
    10 ≤ Flt.ieee.rnd (tailAt j * 10 ^ (j + 2)) ∧ Flt.ieee.rnd (tailAt j * (10 ^ (j + 2) - 1)) < 10 ∧
    1 ≤ Flt.ieee.rnd (tailAt j * 10 ^ (j + 1)) ∧ Flt.ieee.rnd (tailAt j * (10 ^ (j + 1) - 1)) < 1 ∧
    (decide (tailAt j < Flt.ieee.rnd (1 / 20)) = decide (0 < j)) ∧
    |Flt.ieee.rnd (1 - tailAt j) - (1 - 1 / 10 ^ (j + 1))| ≤ 1 / 10 ^ 15 ∧
    |Flt.ieee.rnd (1 - Flt.ieee.rnd (tailAt j / 2)) - (1 - 5 / 10 ^ (j + 2))| ≤ 1 / 10 ^ 15 ∧
    0 < Flt.ieee.rnd (1 - tailAt j) ∧ Flt.ieee.rnd (1 - tailAt j) < 1 ∧
    0 < Flt.ieee.rnd (1 - Flt.ieee.rnd (tailAt j / 2)) ∧ Flt.ieee.rnd (1 - Flt.ieee.rnd (tailAt j / 2)) < 1 ∧ 0 < tailAt j := by decide +kernel

/-- A round is done if there are enough values. -/
theorem tail_yes {j N : Nat} (hj : j < 14) : (10 ^ (j + 2) ≤ N → 10 ≤ Flt.ieee.rnd (tailAt j * N)) ∧ (N < 10 ^ (j + 2) → Flt.ieee.rnd (tailAt j * N) < 10) ∧
    (10 ^ (j + 1) ≤ N → 1 ≤ Flt.ieee.rnd (tailAt j * N)) ∧ (N < 10 ^ (j + 1) → Flt.ieee.rnd (tailAt j * N) < 1) := by
  obtain ⟨a1, a2, a3, a4, -, -, -, -, -, -, -, hp⟩ := tail_table j (List.mem_range.2 hj)
  have up : ∀ m : Nat, 10 ^ m ≤ N → Flt.ieee.rnd (tailAt j * 10 ^ m) ≤ Flt.ieee.rnd (tailAt j * N) := fun m h => by
    apply Flt.ieee.mono
    have : (10 : Rat) ^ m ≤ N := by exact_mod_cast h
    gcongr
  have down : ∀ m : Nat, N < 10 ^ m → Flt.ieee.rnd (tailAt j * N) ≤ Flt.ieee.rnd (tailAt j * (10 ^ m - 1)) := fun m h => by
    apply Flt.ieee.mono
    have : (N : Rat) + 1 ≤ 10 ^ m := by exact_mod_cast h
    have : (N : Rat) ≤ 10 ^ m - 1 := by linarith
    gcongr
  exact ⟨fun h => a1.trans (up _ h), fun h => lt_of_le_of_lt (down _ h) a2, fun h => a3.trans (up _ h), fun h => lt_of_le_of_lt (down _ h) a4⟩

theorem tailsFrom_ok (c : Consts V) {least : Rat} {vals : List V} (hne : vals ≠ []) {e : Rat} {m0 : Nat} (hm0 : m0 < 14)
    (hyes : ∀ j, j < m0 → least ≤ Flt.ieee.rnd (tailAt j * vals.length)) (hno : Flt.ieee.rnd (tailAt m0 * vals.length) < least) :
    ∀ (m j fuel : Nat) (s : Sk V), j + m = m0 → m < fuel → Holds c vals e s →
      ∃ s' rows, tailsFrom c Flt.ieee least fuel (tailAt j) s = .ok (s', rows) ∧ Holds c vals e s' ∧
        List.Forall₂ (fun q r => |r.2.q - q| ≤ 1 / 10 ^ 15 ∧ r.2.percent = Flt.ieee.rnd (100 * r.2.q) ∧ RowOk vals e r.2) ((List.range' (j + 1) m).flatMap pair) rows ∧
        rows.map Prod.fst = (List.range (2 * m)).map fun i => decide (0 < i + j) := by
  intro m
  induction m with
  | zero =>
    intro j fuel s hj hf hs
    obtain ⟨fuel, rfl⟩ : ∃ f, fuel = f + 1 := ⟨fuel - 1, by omega⟩
    obtain rfl : j = m0 := by omega
    refine ⟨s, [], ?_, hs, .nil, rfl⟩
    rw [tailsFrom, hs.count, if_neg (not_le.2 hno)]
    rfl
  | succ m ih =>
    intro j fuel s hj hf hs
    obtain ⟨fuel, rfl⟩ : ∃ f, fuel = f + 1 := ⟨fuel - 1, by omega⟩
    obtain ⟨-, -, -, -, b1, b2, b3, b4, b5, b6, b7, -⟩ := tail_table j (List.mem_range.2 (by omega))
    obtain ⟨s1, x1, e1, hs1, hx1⟩ := hs.ask Flt.ieee hne (le_of_lt b4) (le_of_lt b5)
    obtain ⟨s2, x2, e2, hs2, hx2⟩ := hs1.ask Flt.ieee hne (le_of_lt b6) (le_of_lt b7)
    obtain ⟨s3, rows, e3, hs3, hr, hfl⟩ := ih (j + 1) fuel s2 (by omega) (by omega) hs2
    refine ⟨s3, (decide (tailAt j < Flt.ieee.rnd (1 / 20)), ⟨Flt.ieee.rnd (1 - tailAt j), Flt.ieee.rnd (100 * Flt.ieee.rnd (1 - tailAt j)), some x1⟩) ::
      (true, ⟨Flt.ieee.rnd (1 - Flt.ieee.rnd (tailAt j / 2)), Flt.ieee.rnd (100 * Flt.ieee.rnd (1 - Flt.ieee.rnd (tailAt j / 2))), some x2⟩) :: rows, ?_, hs3, ?_, ?_⟩
    rotate_left
    · rw [List.range'_succ, List.flatMap_cons, pair, List.cons_append, List.cons_append, List.nil_append]
      refine .cons ⟨?_, ?_, ?_, ?_, x1, ?_, ?_⟩ (.cons ⟨?_, ?_, ?_, ?_, x2, ?_, ?_⟩ hr)
      · exact b2
      · trivial
      · exact le_of_lt b4
      · exact le_of_lt b5
      · trivial
      · exact hx1
      · exact b3
      · trivial
      · exact le_of_lt b6
      · exact le_of_lt b7
      · trivial
      · exact hx2
    rotate_left
    · rw [tailsFrom, hs.count, if_pos (hyes j (by omega)), e1, Res.bind_ok]
      simp only [e2, Res.bind_ok]
      rw [show Flt.ieee.rnd (Flt.ieee.rnd (tailAt j / 2) / 5) = tailAt (j + 1) from rfl, e3]
      rfl
    · rw [show 2 * (m + 1) = 2 * m + 1 + 1 by omega, List.range_succ_eq_map, List.range_succ_eq_map]
      simp only [List.map_cons, List.map_map, hfl, b1]
      refine congrArg₂ _ (by simp) (congrArg₂ _ (by simp) ?_)
      apply List.map_congr_left
      intro i _
      simp

/-! ## Writing -/

theorem rangeCells_append (label : Rat → List Char) (val : Option V → List Char) : ∀ (a : List (Row V)) (k : Nat) (b : List (Row V)),
    rangeCells label val k (a ++ b) = rangeCells label val k a ++ rangeCells label val (k + a.length) b
  | [], _, _ => rfl
  | r :: a, k, b => by
    simp only [List.cons_append, rangeCells, rangeCells_append label val a (k + 1) b, List.length_cons, List.append_assoc]
    rw [show k + 1 + a.length = k + (a.length + 1) by omega]

theorem rangeCells_mod (label : Rat → List Char) (val : Option V → List Char) : ∀ (a : List (Row V)) (k : Nat),
    rangeCells label val (k + 10) a = rangeCells label val k a
  | [], _ => rfl
  | r :: a, k => by
    simp only [rangeCells]
    rw [show k + 10 + 1 = k + 1 + 10 by omega, rangeCells_mod label val a (k + 1), show (k + 10) % 10 = k % 10 by omega]

theorem rangeCells_rest (label : Rat → List Char) (val : Option V → List Char) : ∀ (a : List (Row V)) (k : Nat), 0 < k → k + a.length ≤ 10 →
    rangeCells label val k a = a.flatMap fun r => ", ".toList ++ val r.value
  | [], _, _, _ => rfl
  | r :: a, k, h, h' => by
    rw [List.length_cons] at h'
    rw [rangeCells, rangeCells_rest label val a (k + 1) (by omega) (by omega), if_neg (by omega), List.flatMap_cons]

theorem intercalate_cons {α : Type} (sep : List α) : ∀ (x : List α) (l : List (List α)), sep.intercalate (x :: l) = x ++ l.flatMap (sep ++ ·)
  | x, [] => by simp
  | x, y :: l => by
    rw [List.intercalate_cons_cons, intercalate_cons sep y l]
    simp

theorem tailCells_true (label : Rat → List Char) (val : Option V → List Char) : ∀ l : List (Bool × Row V), (∀ r ∈ l, r.1 = true) →
    tailCells label val l = (l.map fun r => label r.2.percent ++ "%: ".toList ++ val r.2.value).flatMap (", ".toList ++ ·)
  | [], _ => rfl
  | r :: l, h => by
    rw [tailCells, tailCells_true label val l fun r hr => h r (List.mem_cons_of_mem _ hr), h r List.mem_cons_self]
    simp

end Verif.Quantile
