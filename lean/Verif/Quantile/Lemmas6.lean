import Verif.Quantile.Bound

/-! # Histories -/

namespace Verif.Quantile

open Verif

variable {V : Type} [LinearOrder V]

/-- Zero, or less than the bound. -/
def Small (x : Nat) (B : Rat) : Prop := x = 0 ∨ (x : Rat) < B

theorem Small.mono {x : Nat} {B B' : Rat} (h : Small x B) (hB : B ≤ B') : Small x B' := h.imp id fun h => lt_of_lt_of_le h hB

theorem Small.add {x y : Nat} {A B : Rat} (h : Small x A) (h' : Small y B) (hA : 0 ≤ A) (hB : 0 ≤ B) : Small (x + y) (A + B) := by
  rcases h with rfl | h <;> rcases h' with rfl | h'
  · exact Or.inl rfl
  · right; push_cast; linarith
  · right; push_cast; linarith
  · right; push_cast; linarith

/-- What is known of the sketch a history leads to. -/
structure Made (h : Hist V) (s : Sk V) (xl xh : Nat) : Prop where
  inv : Inv s (values h) xl xh
  count : s.count = (values h).length
  size : s.size = (config h).2
  len : s.slots.length = (config h).1
  nbound : s.nbound = bound h
  low : ∀ ε : Rat, Good (Covers ε) h → Small xl (depth h * ε * (values h).length)
  high : ∀ ε : Rat, Good (Covers ε) h → (xh : Rat) ≤ depth h * ε * (values h).length

theorem Good.eps {ε : Rat} : ∀ {h : Hist V}, Good (Covers ε) h → 0 ≤ ε
  | .new _ _ _ _, ⟨_, _, h⟩ => h.1
  | .add _ _, h => Good.eps h.1
  | .merge _ _, h => Good.eps h.1
  | .reset h, h' => Good.eps (h := h) h'
  | .query h _ _, h' => Good.eps (h := h) h'

theorem Good.fit {ε : Rat} : ∀ {h : Hist V}, Good (Covers ε) h → Fit (Covers ε) h
  | .new _ _ _ _, h => h
  | .add _ _, h => h.2
  | .merge _ _, h => h.2.2
  | .reset h, h' => by
    obtain ⟨N, h1, h2⟩ := Good.fit (h := h) h'
    exact ⟨N, Nat.zero_le _, h2⟩
  | .query h _ _, h' => Good.fit (h := h) h'

theorem Good.mono {P Q : Nat → Nat → Nat → Prop} : ∀ {h : Hist V}, Good P h → Sane h → (∀ N n k, 1 < n → P N n k → Q N n k) → Good Q h
  | .new n k b l, ⟨N, h1, h2⟩, hs, H => ⟨N, h1, H _ _ _ hs.1 h2⟩
  | .add h v, ⟨g, N, h1, h2⟩, hs, H => ⟨Good.mono g hs.1 H, N, h1, H _ _ _ (config_two hs) h2⟩
  | .merge h h', ⟨g, g', N, h1, h2⟩, hs, H => ⟨Good.mono g hs.1 H, Good.mono g' hs.2.1 H, N, h1, H _ _ _ (config_two hs) h2⟩
  | .reset h, g, hs, H => Good.mono (h := h) g hs H
  | .query h _ _, g, hs, H => Good.mono (h := h) g hs.1 H
where
  config_two : ∀ {h : Hist V}, Sane h → 1 < (config h).1
    | .new _ _ _ _, hs => hs.1
    | .add h _, hs => config_two (h := h) hs.1
    | .merge h _, hs => config_two (h := h) hs.1
    | .reset h, hs => config_two (h := h) hs
    | .query h _ _, hs => config_two (h := h) hs.1

/-- The error of a sketch. -/
theorem Made.err {h : Hist V} {s : Sk V} {xl xh : Nat} (m : Made h s xl xh) {ε : Rat} (hg : Good (Covers ε) h) :
    Small s.lo ((depth h + 1) * ε * (values h).length) ∧ (s.hi : Rat) ≤ (depth h + 1) * ε * (values h).length := by
  obtain ⟨N, h1, h2⟩ := hg.fit
  rw [← m.len, ← m.size] at h2
  obtain ⟨ol, oh, e1, e2, e3, e4⟩ := collapse_bound m.inv h1 h2
  have hε := hg.eps
  have hn : (0 : Rat) ≤ ε * (values h).length := by positivity
  have hd : (0 : Rat) ≤ depth h * ε * (values h).length := by positivity
  refine ⟨?_, ?_⟩
  · rw [e1]
    refine (Small.add e3 (m.low ε hg) hn hd).mono (le_of_eq ?_)
    ring
  · rw [e2]
    push_cast
    have := m.high ε hg
    linarith [add_mul ((depth h : Rat)) 1 (ε * (values h).length), mul_assoc (depth h + 1 : Rat) ε (values h).length, mul_assoc (depth h : Rat) ε (values h).length]

theorem eval_ok (c : Consts V) : ∀ h : Hist V, Sane h → ∃ s xl xh, eval c h = .ok s ∧ Made h s xl xh
  | .new n k b l, hs => by
    obtain ⟨s, e, hI, h1, h2, h3, h4⟩ := new_ok (V := V) (b := b) l hs.1 hs.2.1 hs.2.2.1 hs.2.2.2
    exact ⟨s, 0, 0, e, hI, h1, h2, h3, h4, fun _ _ => Or.inl rfl, fun _ _ => by simp [depth]⟩
  | .add h v, hs => by
    obtain ⟨s, xl, xh, e, m⟩ := eval_ok c h hs.1
    have hlen : (values (.add h v)).length = (values h).length + 1 := by simp [values]
    have hlt := hs.2
    rw [hlen] at hlt
    obtain ⟨s', e', hI, hsame⟩ := addQuantile_ok c { s with count := s.count + 1 } v (m.inv.count _) (by
      show s.count + 1 < _
      rw [m.count]; exact hlt)
    have hεl : ∀ ε : Rat, 0 ≤ ε → (depth h : Rat) * ε * (values h).length ≤ depth (.add h v) * ε * (values (.add h v)).length := by
      intro ε hε
      rw [hlen]
      push_cast
      show (depth h : Rat) * ε * _ ≤ depth h * ε * _
      have : 0 ≤ (depth h : Rat) * ε := by positivity
      nlinarith
    refine ⟨s', xl, xh, ?_, hI, ?_, hsame.size.trans m.size, hsame.len.trans m.len, hsame.nbound.trans m.nbound, ?_, ?_⟩
    · rw [eval, e]; exact e'
    · rw [hsame.count, hlen]; show s.count + 1 = _; rw [m.count]
    · intro ε hg
      exact (m.low ε hg.1).mono (hεl ε hg.1.eps)
    · intro ε hg
      exact le_trans (m.high ε hg.1) (hεl ε hg.1.eps)
  | .merge h h', hs => by
    obtain ⟨hs1, hs2, hlt, hcond⟩ := hs
    obtain ⟨s, xl, xh, e, m⟩ := eval_ok c h hs1
    obtain ⟨t, yl, yh, e', m'⟩ := eval_ok c h' hs2
    have hlen : (values (.merge h h')).length = (values h).length + (values h').length := by simp [values]
    rw [hlen] at hlt
    have hd1 : (depth h : Rat) ≤ depth (.merge h h') := by exact_mod_cast Nat.le_max_left _ _
    have hd2 : (depth h' : Rat) + 1 ≤ depth (.merge h h') := by exact_mod_cast Nat.le_max_right (depth h) (depth h' + 1)
    by_cases hcopy : values h = [] ∧ s.size = t.size ∧ s.slots.length = t.slots.length
    · obtain ⟨h0, h1, h2⟩ := hcopy
      have hI := m.inv
      rw [h0] at hI
      obtain ⟨s', e2, hI', g1, g2, g3, g4⟩ := merge_copy_ok c s t hI m'.inv (by rw [m.count, h0]; rfl) h1 h2
      have hv : values (.merge h h') = values h' := by simp [values, h0]
      have hεl : ∀ ε : Rat, 0 ≤ ε → (depth h' : Rat) * ε * (values h').length ≤ depth (.merge h h') * ε * (values (.merge h h')).length := by
        intro ε hε
        rw [hv]
        have : (depth h' : Rat) * ε ≤ depth (.merge h h') * ε := mul_le_mul_of_nonneg_right (by linarith) hε
        exact mul_le_mul_of_nonneg_right this (by positivity)
      refine ⟨s', yl, yh, ?_, by rw [hv]; exact hI', by rw [g1, hv]; exact m'.count, g2.trans m.size, g3.trans m.len, g4.trans m.nbound, ?_, ?_⟩
      · rw [eval, e]
        simp only [Res.bind_ok]
        rw [e']
        exact e2
      · intro ε hg
        exact (m'.low ε hg.2.1).mono (hεl ε hg.1.eps)
      · intro ε hg
        exact le_trans (m'.high ε hg.2.1) (hεl ε hg.1.eps)
    · have hne : values h' ≠ [] := by
        rcases hcond with h | ⟨h0, h1⟩
        · exact h
        · exact absurd ⟨h0, by rw [m.size, m'.size, h1], by rw [m.len, m'.len, h1]⟩ hcopy
      obtain ⟨s', e2, hI', g1, g2, g3, g4⟩ := merge_insert_ok c s t m.inv m'.inv hne hcopy (by rw [m.count, m'.count]; exact hlt)
      have hsplit : ∀ ε : Rat, 0 ≤ ε → (depth h : Rat) * ε * (values h).length + (depth h' + 1) * ε * (values h').length ≤
          depth (.merge h h') * ε * (values (.merge h h')).length := by
        intro ε hε
        rw [hlen]
        push_cast
        have a1 : (depth h : Rat) * ε * (values h).length ≤ depth (.merge h h') * ε * (values h).length :=
          mul_le_mul_of_nonneg_right (mul_le_mul_of_nonneg_right hd1 hε) (by positivity)
        have a2 : (depth h' + 1 : Rat) * ε * (values h').length ≤ depth (.merge h h') * ε * (values h').length :=
          mul_le_mul_of_nonneg_right (mul_le_mul_of_nonneg_right hd2 hε) (by positivity)
        linarith [mul_add ((depth (.merge h h') : Rat) * ε) (values h).length (values h').length]
      refine ⟨s', xl + t.lo, xh + t.hi, ?_, hI', by rw [g1, hlen, m.count, m'.count], g2.trans m.size, g3.trans m.len, g4.trans m.nbound, ?_, ?_⟩
      · rw [eval, e]
        simp only [Res.bind_ok]
        rw [e']
        exact e2
      · intro ε hg
        have hε := hg.1.eps
        exact ((m.low ε hg.1).add (m'.err hg.2.1).1 (by positivity) (by positivity)).mono (hsplit ε hε)
      · intro ε hg
        have h1 := m.high ε hg.1
        have h2 := (m'.err hg.2.1).2
        have h3 := hsplit ε hg.1.eps
        push_cast at h2 ⊢
        linarith
  | .reset h, hs => by
    obtain ⟨s, xl, xh, e, m⟩ := eval_ok c h hs
    obtain ⟨h1, h2, h3, h4, h5⟩ := reset_ok m.inv
    refine ⟨reset s, 0, 0, by rw [eval, e]; rfl, h1, h2, h3.trans m.size, h4.trans m.len, h5.trans m.nbound, fun _ _ => Or.inl rfl, fun _ _ => by simp [depth]⟩
  | .query h t a, hs => by
    obtain ⟨hs1, hs2, hs3⟩ := hs
    obtain ⟨s, xl, xh, e, m⟩ := eval_ok c h hs1
    by_cases h0 : values h = []
    · refine ⟨s, xl, xh, ?_, m.inv, m.count, m.size, m.len, m.nbound, m.low, m.high⟩
      rw [eval, e]
      simp only [Res.bind_ok]
      unfold query
      rw [if_pos (by rw [m.count, h0]; rfl)]; rfl
    · have hlt : s.count < 100000000000000 := by rw [m.count]; exact sane_count hs1
      obtain ⟨s', x, e2, hI, hsame, h1, h2, _⟩ := query_ok c s m.inv m.count h0 t (hs3 h0) a (by rw [m.count, m.nbound]; exact hs2) hlt
      refine ⟨s', xl, xh, ?_, hI, hsame.count.trans m.count, hsame.size.trans m.size, hsame.len.trans m.len, hsame.nbound.trans m.nbound, m.low, m.high⟩
      rw [eval, e]
      simp only [Res.bind_ok]
      rw [e2]; rfl
where
  sane_count : ∀ {h : Hist V}, Sane h → (values h).length < 100000000000000
    | .new _ _ _ _, _ => by simp [values]
    | .add _ _, hs => hs.2
    | .merge _ _, hs => hs.2.2.1
    | .reset _, _ => by simp [values]
    | .query h _ _, hs => sane_count (h := h) hs.1

/-! ## The target index -/

theorem tiny_bounds (R : Flt.Rounding) : 999 / 10 ^ 18 ≤ R.rnd (1 / 10 ^ 15) ∧ R.rnd (1 / 10 ^ 15) ≤ 1001 / 10 ^ 18 := by
  have h := R.err (1 / 10 ^ 15)
  rw [abs_le] at h
  norm_num at h ⊢
  constructor <;> linarith [h.1, h.2]

theorem targetIndex_ok (R : Flt.Rounding) {N : Nat} (hN : 0 < N) {q : Rat} (h0 : 0 ≤ q) (h1 : q ≤ 1) :
    targetIndex R N q < N ∧ (N : Rat) * (q - 2 / 10 ^ 15) ≤ targetIndex R N q + 1 ∧ (targetIndex R N q = 0 ∨ (targetIndex R N q : Rat) < N * (q - 7 / 10 ^ 16)) := by
  obtain ⟨t1, t2⟩ := tiny_bounds R
  unfold targetIndex
  simp only []
  generalize R.rnd (1 / 10 ^ 15) = tiny at *
  have hNq : (0 : Rat) < N := by exact_mod_cast hN
  have e1 := R.err (q - tiny)
  set y := R.rnd (q - tiny) with hy
  have e2 := R.err (N * y)
  set z := R.rnd (N * y) with hz
  have habs : |q - tiny| ≤ 1 := by
    rw [abs_le]; constructor <;> norm_num at t1 t2 ⊢ <;> linarith
  -- both roundings
  have hy1 : |y - (q - tiny)| ≤ 1 / 2 ^ 53 := le_trans e1 (by rw [div_le_div_iff_of_pos_right (by norm_num)]; exact habs)
  rw [abs_le] at hy1
  have hyabs : |y| ≤ 1 + 1 / 2 ^ 53 := by
    rw [abs_le] at habs ⊢
    constructor <;> linarith [hy1.1, hy1.2, habs.1, habs.2]
  have hz1 : |z - N * y| ≤ N * (1 + 1 / 2 ^ 53) / 2 ^ 53 := by
    refine le_trans e2 ?_
    rw [div_le_div_iff_of_pos_right (by norm_num), abs_mul, abs_of_pos hNq]
    exact mul_le_mul_of_nonneg_left hyabs (le_of_lt hNq)
  rw [abs_le] at hz1
  have hzu : z ≤ N * (q - 7 / 10 ^ 16) := by
    have a : z ≤ N * ((q - tiny) + 1 / 2 ^ 53 + (1 + 1 / 2 ^ 53) / 2 ^ 53) := by
      have := mul_le_mul_of_nonneg_left hy1.2 (le_of_lt hNq)
      have e : (N : Rat) * ((q - tiny) + 1 / 2 ^ 53 + (1 + 1 / 2 ^ 53) / 2 ^ 53) = N * (q - tiny) + N * (1 / 2 ^ 53) + N * (1 + 1 / 2 ^ 53) / 2 ^ 53 := by ring
      rw [e]
      have e' : (N : Rat) * (y - (q - tiny)) = N * y - N * (q - tiny) := by ring
      linarith [hz1.2]
    refine le_trans a (mul_le_mul_of_nonneg_left ?_ (le_of_lt hNq))
    norm_num at t1 ⊢
    linarith
  have hzl : N * (q - 2 / 10 ^ 15) ≤ z := by
    have a : N * ((q - tiny) - 1 / 2 ^ 53 - (1 + 1 / 2 ^ 53) / 2 ^ 53) ≤ z := by
      have := mul_le_mul_of_nonneg_left hy1.1 (le_of_lt hNq)
      have e : (N : Rat) * ((q - tiny) - 1 / 2 ^ 53 - (1 + 1 / 2 ^ 53) / 2 ^ 53) = N * (q - tiny) - N * (1 / 2 ^ 53) - N * (1 + 1 / 2 ^ 53) / 2 ^ 53 := by ring
      rw [e]
      have e' : (N : Rat) * (y - (q - tiny)) = N * y - N * (q - tiny) := by ring
      have e'' : (N : Rat) * -(1 / 2 ^ 53) = -(N * (1 / 2 ^ 53)) := by ring
      linarith [hz1.1]
    refine le_trans (mul_le_mul_of_nonneg_left ?_ (le_of_lt hNq)) a
    norm_num at t2 ⊢
    linarith
  have hceilN : ⌈z⌉ ≤ N := Int.ceil_le.2 (by
    have : (N : Rat) * (q - 7 / 10 ^ 16) ≤ N := by
      have : q - 7 / 10 ^ 16 ≤ 1 := by norm_num; linarith
      nlinarith
    exact_mod_cast le_trans hzu this)
  have hcz := Int.le_ceil z
  have hcz' := Int.ceil_lt_add_one z
  by_cases hneg : ⌈z⌉ - 1 < 0
  · rw [if_pos hneg, if_neg (by omega)]
    refine ⟨by simpa using hN, ?_, Or.inl rfl⟩
    have : ⌈z⌉ ≤ 0 := by omega
    have : (⌈z⌉ : Rat) ≤ 0 := by exact_mod_cast this
    simp only [Int.toNat_zero, Nat.cast_zero]
    linarith
  · rw [if_neg hneg, if_neg (by omega)]
    obtain ⟨m, hm⟩ : ∃ m : Nat, ⌈z⌉ = m + 1 := ⟨(⌈z⌉ - 1).toNat, by omega⟩
    rw [hm]
    have : ((m : Int) + 1 - 1).toNat = m := by omega
    rw [this]
    rw [hm] at hcz hcz' hceilN
    push_cast at hcz hcz'
    refine ⟨by omega, by linarith, Or.inr (by linarith)⟩

/-- Asking for `m / N` means the `m`-th value. -/
theorem targetIndex_div (R : Flt.Rounding) {N m : Nat} (hm : 1 ≤ m) (hmN : m ≤ N) (hN : N < 100000000000000) (h1 : R.rnd (m / N) ≤ 1) :
    targetIndex R N (R.rnd (m / N)) = m - 1 := by
  have hNq : (0 : Rat) < N := by exact_mod_cast (by omega : 0 < N)
  have hmq : (0 : Rat) < m := by exact_mod_cast (by omega : 0 < m)
  have hle : (m : Rat) ≤ N := by exact_mod_cast hmN
  have hN14 : (N : Rat) ≤ 100000000000000 := by exact_mod_cast le_of_lt hN
  have hpos : (0 : Rat) < m / N := div_pos hmq hNq
  have e := R.err (m / N)
  rw [abs_of_pos hpos, abs_le] at e
  have e1 : (N : Rat) * R.rnd (m / N) ≤ m + m / 2 ^ 53 := by
    have := mul_le_mul_of_nonneg_left (show R.rnd (m / N) ≤ m / N + m / N / 2 ^ 53 by linarith [e.2]) (le_of_lt hNq)
    have q : (N : Rat) * (m / N + m / N / 2 ^ 53) = m + m / 2 ^ 53 := by field_simp
    linarith
  have e2 : (m : Rat) - m / 2 ^ 53 ≤ N * R.rnd (m / N) := by
    have := mul_le_mul_of_nonneg_left (show m / N - m / N / 2 ^ 53 ≤ R.rnd (m / N) by linarith [e.1]) (le_of_lt hNq)
    have q : (N : Rat) * (m / N - m / N / 2 ^ 53) = m - m / 2 ^ 53 := by field_simp
    linarith
  have h0 : 0 ≤ R.rnd (m / N) := by
    by_contra hn
    have : (N : Rat) * R.rnd (m / N) ≤ 0 := mul_nonpos_of_nonneg_of_nonpos (le_of_lt hNq) (le_of_lt (not_le.1 hn))
    norm_num at e2
    linarith
  obtain ⟨t1, t2, t3⟩ := targetIndex_ok R (show 0 < N by omega) h0 h1
  generalize targetIndex R N (R.rnd (m / N)) = t at *
  have a1 : m ≤ t + 1 := by
    have : (m : Rat) - 1 < t + 1 := by
      rw [mul_sub] at t2
      norm_num at t2 e2
      linarith
    have : (m : Rat) < ((t + 2 : Nat) : Rat) := by push_cast; linarith
    have : m < t + 2 := by exact_mod_cast this
    omega
  have a2 : t < m ∨ t = 0 := by
    rcases t3 with h | h
    · exact Or.inr h
    · left
      rw [mul_sub] at h
      have : (t : Rat) < m := by norm_num at h e1; linarith
      exact_mod_cast this
  omega

/-! ## Positions -/

theorem atPos_of_counts {vals : List V} {x : V} {j : Nat} (h1 : vals.countP (fun v => decide (v < x)) < j) (h2 : j ≤ vals.countP (fun v => decide (v ≤ x))) :
    AtPos vals x j := by
  have hp := srt_perm vals
  have hs := srt_pairwise vals
  have hlen : j - 1 < (srt vals).length := by
    rw [srt_length]
    have : vals.countP (fun v => decide (v ≤ x)) ≤ vals.length := List.countP_le_length
    omega
  refine ⟨?_, by omega⟩
  show (srt vals)[j - 1]? = some x
  rw [List.getElem?_eq_getElem hlen]
  congr 1
  have a1 := (sorted_split hs (down_le x)).1 (srt vals)[j - 1] (List.mem_take_iff_getElem.2 ⟨j - 1, by rw [hp.countP_eq]; omega, rfl⟩)
  have a2 := (sorted_split hs (down_lt x)).2 (srt vals)[j - 1] (List.mem_drop_iff_getElem.2
    ⟨j - 1 - (srt vals).countP (fun v => decide (v < x)), by rw [hp.countP_eq]; omega, getElem_at _ _ _ _ _ (by rw [hp.countP_eq]; omega)⟩)
  simp only [decide_eq_true_eq, decide_eq_false_iff_not, not_lt] at a1 a2
  exact le_antisymm a1 a2

theorem counts_lt {vals : List V} {x : V} (h : x ∈ vals) : vals.countP (fun v => decide (v < x)) < vals.countP (fun v => decide (v ≤ x)) := by
  induction vals with
  | nil => simp at h
  | cons a l ih =>
    have hle : l.countP (fun v => decide (v < x)) ≤ l.countP (fun v => decide (v ≤ x)) :=
      countP_le_of_imp (fun v hv => by simp only [decide_eq_true_eq] at hv ⊢; exact le_of_lt hv) l
    by_cases hax : a = x
    · subst hax
      rw [List.countP_cons_of_neg (by simp), List.countP_cons_of_pos (by simp)]
      omega
    · have := ih ((List.mem_cons.1 h).resolve_left (Ne.symm hax))
      simp only [List.countP_cons, decide_eq_true_eq]
      by_cases hlt : a < x
      · rw [if_pos hlt, if_pos (le_of_lt hlt)]; omega
      · rw [if_neg hlt]; split <;> omega

end Verif.Quantile
