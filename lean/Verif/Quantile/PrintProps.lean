import Verif.Quantile.PrintLemmas
import Verif.Quantile.Props

/-! # Which quantiles are printed -/

namespace Verif.Quantile

open Verif Flt

variable {V : Type} [LinearOrder V]

/-- `Double::default_epsilon`, `Double.cpp:28`. -/
def deps : Rat := ieee.rnd (1 / 10 ^ 12)

theorem deps_bounds : 99 / 10 ^ 14 ≤ deps ∧ deps ≤ 1 / 10000 := by decide +kernel

theorem holds_of (c : Consts V) {h : Hist V} (hs : Sane h) {ε : Rat} (hε : 0 ≤ ε) (hg : Good (fun N n k => Built ieee ε N n k ∧ 2 * ε * N ≤ 1500000000) h)
    (hb : (values h).length ≤ bound h) : ∃ s, eval c h = .ok s ∧ Holds c (values h) ((depth h + 1) * ε) s := by
  obtain ⟨s, xl, xh, e, -⟩ := eval_ok c h hs
  refine ⟨s, e, h, ε, e, hs, hg.mono hs fun _ _ _ _ hc => ?_, rfl, rfl, hb⟩
  obtain ⟨⟨inN, h1, rfl, h2⟩, h3⟩ := hc
  exact ctor_covers ieee hε h1 h3 h2

theorem percent_ok {q q' : Rat} (h : |q - q'| ≤ 834 / 10 ^ 15) (h0 : 0 ≤ q) (h1 : q ≤ 1) : |ieee.rnd (q * 100) - 100 * q'| ≤ 1 / 10 ^ 10 := by
  have hr := ieee.err (q * 100)
  rw [abs_of_nonneg (by linarith : 0 ≤ q * 100)] at hr
  have : q * 100 / 2 ^ 53 ≤ 1 / 10 ^ 13 := by
    rw [div_le_iff₀ (by positivity)]; norm_num; linarith
  rw [abs_le] at h hr ⊢
  norm_num at h hr this ⊢
  constructor <;> linarith [h.1, h.2, hr.1, hr.2]

theorem ranges_ok (c : Consts V) {vals : List V} (hne : vals ≠ []) {e : Rat} {n : Nat} (h1 : 1 ≤ n) (h2 : n ≤ 3000) {fuel : Nat} (hf : n ≤ fuel) {s : Sk V} (hs : Holds c vals e s) :
    ∃ s' rows, ranges c ieee deps n fuel s = .ok (s', rows) ∧ Holds c vals e s' ∧ List.Forall₂ (Right vals e) (fracs n) rows := by
  obtain ⟨s', rows, e1, hs', hr⟩ := rangesFrom_ok c ieee deps_bounds.1 deps_bounds.2 h2 hne (n - 1) 1 fuel _ s (le_refl 1) (by omega) (by omega) (err_first ieee h1) hs
  refine ⟨s', rows, ?_, hs', ?_⟩
  · unfold ranges
    rw [if_neg (by exact_mod_cast (by omega : n ≠ 0))]
    rw [show (((n : Nat) : Int) : Rat) = (n : Rat) from Int.cast_natCast n]
    exact e1
  · unfold fracs
    rw [List.forall₂_map_left_iff]
    refine hr.imp fun k r h => ?_
    obtain ⟨a1, a2, a3, a4, x, a5, a6⟩ := h
    refine ⟨a1.trans (by norm_num), ?_, x, a5, a6⟩
    rw [a2]
    exact percent_ok a1 a3 a4

theorem tails_ok (c : Consts V) {vals : List V} (hne : vals ≠ []) (hN : vals.length < 10 ^ 14) {e : Rat} {least : Nat} (hl : least = 1 ∨ least = 10) {fuel : Nat} (hf : 14 ≤ fuel) {s : Sk V}
    (hs : Holds c vals e s) :
    ∃ s' rows l, tails c ieee least fuel s = .ok (s', rows) ∧ Holds c vals e s' ∧ TailFracs least vals.length l ∧ List.Forall₂ (Right vals e) l (rows.map Prod.snd) ∧
      rows.map Prod.fst = (List.range rows.length).map fun i => decide (0 < i) := by
  have hpos := List.length_pos_iff.2 hne
  have hlog : ∀ j, 10 ^ j ≤ vals.length ↔ j ≤ Nat.log 10 vals.length := fun j => (Nat.le_log_iff_pow_le (by norm_num) (by omega)).symm
  have hlog13 : Nat.log 10 vals.length < 14 := by
    by_contra hc
    have := (hlog 14).2 (by omega)
    omega
  obtain ⟨m, hm, hmj, hyes, hno⟩ : ∃ m, m < 14 ∧ (∀ j, 1 ≤ j → (j ≤ m ↔ least * 10 ^ j ≤ vals.length)) ∧
      (∀ j, j < m → (least : Rat) ≤ ieee.rnd (tailAt j * vals.length)) ∧ ieee.rnd (tailAt m * vals.length) < (least : Rat) := by
    rcases hl with rfl | rfl
    · refine ⟨Nat.log 10 vals.length, hlog13, fun j _ => by rw [one_mul, hlog], fun j hj => ?_, ?_⟩
      · exact_mod_cast (tail_yes (by omega)).2.2.1 ((hlog (j + 1)).2 (by omega))
      · exact_mod_cast (tail_yes hlog13).2.2.2 (by rw [← not_le, hlog]; omega)
    · refine ⟨Nat.log 10 vals.length - 1, by omega, fun j h1 => ?_, fun j hj => ?_, ?_⟩
      · rw [← pow_succ', hlog]; omega
      · exact_mod_cast (tail_yes (by omega)).1 ((hlog (j + 2)).2 (by omega))
      · exact_mod_cast (tail_yes (by omega)).2.1 (by rw [← not_le, hlog]; omega)
  obtain ⟨s', rows, e1, hs', hr, hfl⟩ := tailsFrom_ok c hne hm hyes hno m 0 fuel s (by omega) (by omega) hs
  refine ⟨s', rows, _, e1, hs', ⟨m, rfl, hmj⟩, ?_, ?_⟩
  · rw [List.forall₂_map_right_iff]
    refine hr.imp fun q r h => ?_
    obtain ⟨a1, a2, a3, a4, x, a5, a6⟩ := h
    refine ⟨a1.trans (by norm_num), ?_, x, a5, a6⟩
    rw [a2, mul_comm]
    exact percent_ok (a1.trans (by norm_num)) a3 a4
  · have : rows.length = 2 * m := by
      have := congrArg List.length hfl
      simpa using this
    rw [this, hfl]
    simp

/-- C213. `printRome` prints the boundaries of the ranges, then a pair of tails for every power of ten that the number of values reaches. Every value is right up to the error
that the statistic was made for. -/
theorem rome_rows_partial (c : Consts V) (h : Hist V) (hs : Sane h) (hne : values h ≠ []) (hb : (values h).length ≤ bound h) (ε : Rat) (hε : 0 ≤ ε)
    (hg : Good (fun N n k => Built ieee ε N n k ∧ 2 * ε * N ≤ 1500000000) h) (n : Nat) (h1 : 1 ≤ n) (h2 : n ≤ 3000) (fuel : Nat) (hf : n + 14 ≤ fuel) :
    ∃ s s' rows l, eval c h = .ok s ∧ romeRows c ieee deps n fuel s = .ok (s', rows) ∧ TailFracs 1 (values h).length l ∧
      List.Forall₂ (Right (values h) ((depth h + 1) * ε)) (fracs n ++ l) rows := by
  obtain ⟨s, e, H⟩ := holds_of c hs hε hg hb
  obtain ⟨s1, r1, e1, H1, f1⟩ := ranges_ok c hne h1 h2 (fuel := fuel) (by omega) H
  obtain ⟨s2, r2, l, e2, H2, hl, f2, -⟩ := tails_ok c hne (sane_length hs) (Or.inl rfl) (fuel := fuel) (by omega) H1
  refine ⟨s, s2, r1 ++ r2.map Prod.snd, l, e, ?_, hl, List.rel_append f1 f2⟩
  unfold romeRows
  have hpos := List.length_pos_iff.2 hne
  rw [if_neg (by rw [H.count]; omega), e1]
  rw [Nat.cast_one] at e2
  simp only [Res.bind_ok, e2, Res.pure_eq]

/-- A statistic with the default sizes, 100 values, and the default of 10 ranges: `10, 20, ... 90`, then `90`, `95`, `99` and `99.5`. -/
example : ∃ n k, let h : Hist Nat := adds (.new n k 1000000000 true) (List.range 100)
    Sane h ∧ values h ≠ [] ∧ (values h).length ≤ bound h ∧ 0 ≤ ieee.rnd (1 / 100) ∧
      Good (fun N n k => Built ieee (ieee.rnd (1 / 100)) N n k ∧ 2 * ieee.rnd (1 / 100) * N ≤ 1500000000) h ∧ TailFracs 1 (values h).length [9 / 10, 19 / 20, 99 / 100, 199 / 200] := by
  obtain ⟨n, k, e, h1, h2, h3, h4⟩ := ctor_default ieee
  have hr : 0 ≤ ieee.rnd (1 / 100) ∧ 2 * ieee.rnd (1 / 100) * (1000000000 : Nat) ≤ 1500000000 := by decide +kernel
  have hB : Built ieee (ieee.rnd (1 / 100)) 1000000000 n k := ⟨1000000000, by norm_num, rfl, e⟩
  refine ⟨n, k, sane_adds _ _ ⟨by omega, h3, h2, h4⟩ (by simp [values]), by simp [values_adds], ?_, hr.1, ?_, 2, ?_, ?_⟩
  · rw [values_adds, (config_adds _ _).2.1]; simp [values, bound]
  · exact good_adds 1000000000 _ _ ⟨1000000000, by simp [values], hB, hr.2⟩ ⟨hB, hr.2⟩ (by simp [values])
  · norm_num [List.range', pair]
  · intro j hj
    rw [values_adds]
    simp only [values, List.nil_append, List.length_range, one_mul]
    constructor
    · intro h
      have : 10 ^ j ≤ 10 ^ 2 := Nat.pow_le_pow_right (by norm_num) h
      omega
    · intro h
      by_contra hc
      have : 10 ^ 3 ≤ 10 ^ j := Nat.pow_le_pow_right (by norm_num) (by omega)
      omega

theorem rangeCells_tens (label : Rat → List Char) (val : Option V → List Char) (l : List (Row V)) : rangeCells label val 0 l = (tens l).flatMap (textLine label val) := by
  fun_induction tens l with
  | case1 => rfl
  | case2 r l ih =>
    have key : rangeCells label val 0 (r :: l) = textLine label val (r :: l.take 9) ++ rangeCells label val 0 (l.drop 9) := by
      conv_lhs => rw [← List.take_append_drop 9 l, ← List.cons_append, rangeCells_append]
      congr 1
      · simp only [rangeCells, textLine, List.head?_cons, Option.map_some, Option.getD_some, List.map_cons]
        rw [intercalate_cons, rangeCells_rest label val _ 1 (by omega) (by rw [List.length_take]; omega), List.flatMap_map]
        simp
      · by_cases hl : l.length ≤ 9
        · rw [List.drop_eq_nil_of_le hl]; rfl
        · rw [List.length_cons, List.length_take, Nat.min_eq_left (by omega)]
          exact rangeCells_mod label val _ 0
    rw [key, ih, List.flatMap_cons]

/-- C213. `printTextRanges` writes the same boundaries of ranges, ten to a line, each line headed by the percentage of its first. -/
theorem ranges_text_partial (c : Consts V) (h : Hist V) (hs : Sane h) (hne : values h ≠ []) (hb : (values h).length ≤ bound h) (ε : Rat) (hε : 0 ≤ ε)
    (hg : Good (fun N n k => Built ieee ε N n k ∧ 2 * ε * N ≤ 1500000000) h) (label : Rat → List Char) (val : Option V → List Char) (about : Int → List Char) (own nranges : Int) (n : Nat)
    (hn : nranges = n ∨ (nranges = -1 ∧ own = n)) (h1 : 1 ≤ n) (h2 : n ≤ 3000) (fuel : Nat) (hf : n ≤ fuel) :
    ∃ s s' rows, eval c h = .ok s ∧ List.Forall₂ (Right (values h) ((depth h + 1) * ε)) (fracs n) rows ∧
      rangesText c ieee deps label val about own nranges fuel s =
        .ok (s', "    quantiles about every ".toList ++ about n ++ " data points:".toList ++ (tens rows).flatMap (textLine label val) ++ "\n".toList) := by
  obtain ⟨s, e, H⟩ := holds_of c hs hε hg hb
  obtain ⟨s1, r1, e1, H1, f1⟩ := ranges_ok c hne h1 h2 hf H
  refine ⟨s, s1, r1, e, f1, ?_⟩
  have hpos := List.length_pos_iff.2 hne
  have hsel : (if nranges = -1 then own else nranges) = (n : Int) := by
    rcases hn with rfl | ⟨rfl, rfl⟩
    · rw [if_neg (by omega)]
    · rfl
  unfold rangesText
  simp only [hsel]
  rw [if_neg (by rw [H.count]; omega), e1]
  simp only [Res.bind_ok, Res.pure_eq, rangeCells_tens]

/-- C213. `printTextTail` writes the pairs of tails that have at least ten values beyond the first of the pair, separated by commas. -/
theorem tail_text_partial (c : Consts V) (h : Hist V) (hs : Sane h) (hne : values h ≠ []) (hb : (values h).length ≤ bound h) (ε : Rat) (hε : 0 ≤ ε)
    (hg : Good (fun N n k => Built ieee ε N n k ∧ 2 * ε * N ≤ 1500000000) h) (label : Rat → List Char) (val : Option V → List Char) (fuel : Nat) (hf : 14 ≤ fuel) :
    ∃ s s' rows l, eval c h = .ok s ∧ TailFracs 10 (values h).length l ∧ List.Forall₂ (Right (values h) ((depth h + 1) * ε)) l rows ∧
      tailText c ieee label val fuel s = .ok (s', "  tails: ".toList ++ ", ".toList.intercalate (rows.map (tailEntry label val)) ++ "\n".toList) := by
  obtain ⟨s, e, H⟩ := holds_of c hs hε hg hb
  obtain ⟨s2, r2, l, e2, H2, hl, f2, hfl⟩ := tails_ok c hne (sane_length hs) (Or.inr rfl) hf H
  refine ⟨s, s2, r2.map Prod.snd, l, e, hl, f2, ?_⟩
  have hcells : tailCells label val r2 = ", ".toList.intercalate ((r2.map Prod.snd).map (tailEntry label val)) := by
    cases r2 with
    | nil => rfl
    | cons r r2 =>
      rw [List.length_cons, List.range_succ_eq_map, List.map_cons, List.map_cons, List.cons.injEq] at hfl
      obtain ⟨hf1, hf2⟩ := hfl
      have : ∀ x ∈ r2, x.1 = true := by
        intro x hx
        have := List.mem_map_of_mem (f := Prod.fst) hx
        rw [hf2] at this
        simp only [List.map_map, List.mem_map] at this
        obtain ⟨i, -, hi⟩ := this
        rw [← hi]
        simp
      rw [tailCells, tailCells_true label val r2 this, List.map_cons, List.map_cons, intercalate_cons, hf1]
      simp [tailEntry, List.map_map, Function.comp_def]
  unfold tailText
  rw [show ((10 : Nat) : Rat) = 10 by norm_num] at e2
  rw [e2]
  simp only [Res.bind_ok, Res.pure_eq, hcells]

/-- C213, false of the code: a statistic that was given more values than it was made for cannot be printed; the process stops. -/
theorem print_overfull_false (c : Consts V) (R : Rounding) (eps : Rat) (n : Int) (h0 : n ≠ 0) (hlt : Histo.lt R.rnd eps (R.rnd (1 / n)) 1 = true) (s : Sk V) (hc : s.nbound < s.count) (fuel : Nat) :
    romeRows c R eps n (fuel + 1) s = .abort := by
  have hq : getQuantile c R s (R.rnd (1 / n)) false = .abort := by
    unfold getQuantile
    rw [if_neg (by omega), decide_eq_false (by omega)]
    rfl
  unfold romeRows ranges
  rw [if_neg (by omega), if_neg h0, rangesFrom, hlt, if_pos rfl, hq]
  rfl

/-- Ten ranges, and a statistic made for 100 values that was given 101. -/
example : Histo.lt ieee.rnd deps (ieee.rnd (1 / (10 : Int))) 1 = true ∧ ∀ s : Sk Nat, eval ⟨0, 1000000⟩ (adds (.new 3 40 100 true) (List.range 101)) = .ok s → s.nbound < s.count := by
  refine ⟨by decide +kernel, fun s hs => ?_⟩
  have h : Sane (adds (.new 3 40 100 true) (List.range 101) : Hist Nat) := sane_adds _ _ (by simp [Sane]) (by simp [values])
  obtain ⟨s', xl, xh, e, m⟩ := eval_ok ⟨0, 1000000⟩ _ h
  rw [hs] at e
  obtain rfl := Res.ok.inj e
  rw [m.count, m.nbound, values_adds, (config_adds _ _).2.1]
  simp [values, bound]

theorem lt_neg (R : Rounding) {eps : Rat} (he : eps ≤ 1) {q : Rat} (hq : q < 0) : Histo.lt R.rnd eps q 1 = true := by
  unfold Histo.lt Histo.eq
  have hm0 : 0 < min |q| |(1 : Rat)| := lt_min (abs_pos.2 (by linarith)) (by norm_num)
  have hm1 : min |q| |(1 : Rat)| ≤ 1 := (min_le_right _ _).trans (by norm_num)
  have hd1 : IsDouble 1 := by simpa using isDouble_int 1 (by norm_num)
  rw [if_neg (by linarith), Bool.and_eq_true, decide_eq_true_eq, Bool.not_eq_true', decide_eq_false_iff_not, not_lt]
  refine ⟨by linarith, he.trans (R.ge_of_double hd1 ?_)⟩
  have h1 := R.le_of_double (isDouble_neg hd1) (show q - 1 ≤ -1 by linarith)
  have h2 : 1 ≤ |R.rnd (q - 1)| := by
    have := neg_le_abs (R.rnd (q - 1))
    linarith
  rw [le_div_iff₀ hm0]
  linarith

/-- C213, false of the code: with a negative number of ranges (other than -1 for the default) the process stops, and with 0 no ranges are printed. -/
theorem print_ranges_false (c : Consts V) (R : Rounding) (eps : Rat) (he : eps ≤ 1) (s : Sk V) (hc : s.count ≠ 0) (fuel : Nat) :
    ranges c R eps 0 fuel s = .ok (s, []) ∧ ∀ n : Int, n < 0 → ranges c R eps n (fuel + 1) s = .abort := by
  refine ⟨rfl, fun n hn => ?_⟩
  have hn' : (n : Rat) < 0 := by exact_mod_cast hn
  have hx : (1 : Rat) / n < 0 := div_neg_of_pos_of_neg one_pos hn'
  have hq : R.rnd (1 / n) < 0 := by
    have h := R.err (1 / n)
    rw [abs_of_neg hx, abs_le] at h
    have := h.2
    generalize (1 : Rat) / n = y at *
    norm_num at this hx ⊢
    linarith
  have hg : getQuantile c R s (R.rnd (1 / n)) false = .abort := by
    unfold getQuantile
    rw [if_neg hc, decide_eq_false (p := 0 ≤ R.rnd (1 / n) ∧ _) (by intro h; linarith [h.1])]
    cases (decide (s.count ≤ s.nbound) || false) <;> rfl
  unfold ranges
  rw [if_neg (by omega), rangesFrom, lt_neg R he hq, if_pos rfl, hg]
  rfl

example : deps ≤ 1 ∧ ∃ s : Sk Nat, eval ⟨0, 1000000⟩ (.add (.new 2 10 100 true) 5) = .ok s ∧ s.count ≠ 0 := by
  refine ⟨by decide +kernel, ?_⟩
  obtain ⟨s, xl, xh, e, m⟩ := eval_ok (⟨0, 1000000⟩ : Consts Nat) (.add (.new 2 10 100 true) 5) ⟨by simp [Sane], by simp [values]⟩
  exact ⟨s, e, by rw [m.count]; simp [values]⟩

end Verif.Quantile
