import Verif.Quantile.Lemmas7

/-! # Quantile sketches: the properties -/

namespace Verif.Quantile

open Verif

variable {V : Type} [LinearOrder V]

/-- C29. The weights a sketch stores add up to the number of values added, every stored value is one that was added, and the memory is `nbuffers` buffers of
`buffer_size` cells, whatever happened. -/
theorem sketch_weight (c : Consts V) (h : Hist V) (hs : Sane h) :
    ∃ s, eval c h = .ok s ∧ s.count = (values h).length ∧ ((stored s).map Prod.snd).sum = ((values h).length : Int) ∧ (∀ x ∈ stored s, x.1 ∈ values h) ∧
      s.slots.length = (config h).1 ∧ (∀ x ∈ s.slots, ∀ b, x.buf = some b → b.length = (config h).2) := by
  obtain ⟨s, xl, xh, e, m⟩ := eval_ok c h hs
  obtain ⟨h1, h2, h3⟩ := stored_ok m.inv
  exact ⟨s, e, m.count, h1, h2, m.len, fun x hx b hb => (h3 x hx b hb).trans m.size⟩

/-- The values `vs`, added one after the other. -/
def adds (h : Hist V) (vs : List V) : Hist V := vs.foldl Hist.add h

theorem values_adds : ∀ (vs : List V) (h : Hist V), values (adds h vs) = values h ++ vs
  | [], h => by simp [adds]
  | v :: vs, h => by
    have := values_adds vs (.add h v)
    simp only [adds, List.foldl_cons] at this ⊢
    rw [this]; simp [values]

theorem config_adds : ∀ (vs : List V) (h : Hist V), config (adds h vs) = config h ∧ bound (adds h vs) = bound h ∧ depth (adds h vs) = depth h
  | [], _ => ⟨rfl, rfl, rfl⟩
  | v :: vs, h => config_adds vs (.add h v)

theorem sane_adds : ∀ (vs : List V) (h : Hist V), Sane h → (values h).length + vs.length < 100000000000000 → Sane (adds h vs)
  | [], _, hs, _ => hs
  | v :: vs, h, hs, hl => by
    rw [List.length_cons] at hl
    exact sane_adds vs (.add h v) ⟨hs, by simp [values]; omega⟩ (by simp [values]; omega)

theorem good_adds {P : Nat → Nat → Nat → Prop} (N : Nat) : ∀ (vs : List V) (h : Hist V), Good P h → P N (config h).1 (config h).2 → (values h).length + vs.length ≤ N →
    Good P (adds h vs)
  | [], _, hg, _, _ => hg
  | v :: vs, h, hg, hP, hl => by
    rw [List.length_cons] at hl
    exact good_adds N vs (.add h v) ⟨hg, N, by simp [values]; omega, hP⟩ hP (by simp [values]; omega)

/-- Twice 45 values in three buffers of ten: both collapse on the way, and one is merged into the other. -/
def twice : Hist Nat := .merge (adds (.new 3 10 1000 true) (List.range 45)) (.query (adds (.new 3 10 1000 true) (List.range 45)) 7 false)

theorem twice_sane : Sane twice := by
  have h : Sane (adds (.new 3 10 1000 true) (List.range 45)) := sane_adds _ _ (by simp [Sane]) (by simp [values])
  refine ⟨h, ⟨h, ?_, ?_⟩, ?_, Or.inl ?_⟩ <;> simp [values, values_adds, (config_adds _ _).2.1, bound]

theorem twice_good : Good (Chosen (1 / 8)) twice := by
  have hc : Chosen (1 / 8) 60 3 10 := ⟨by norm_num, 3, by omega, Or.inr (by norm_num [Nat.choose]), by decide⟩
  have hc' : Chosen (1 / 8) 100 3 10 := ⟨by norm_num, 4, by omega, Or.inr (by norm_num [Nat.choose]), by decide⟩
  have h : Good (Chosen (1 / 8)) (adds (.new 3 10 1000 true) (List.range 45)) := good_adds 60 _ _ ⟨60, by simp [values], hc⟩ hc (by simp [values])
  refine ⟨h, h, 100, ?_, ?_⟩
  · simp [values, values_adds]
  · show Chosen _ _ (config (adds _ _)).1 (config (adds _ _)).2
    rw [(config_adds _ _).1]; exact hc'

example : ∃ s, eval ⟨0, 1000000⟩ twice = .ok s ∧ ((stored s).map Prod.snd).sum = 90 := by
  obtain ⟨s, e, -, h, -⟩ := sketch_weight ⟨0, 1000000⟩ twice twice_sane
  refine ⟨s, e, ?_⟩
  rw [h]
  simp [twice, values, values_adds]

/-- C30. As long as no sketch that took part was given more values than fit in its buffers, asking for `m / N` gives exactly the `m`-th smallest value. -/
theorem quantile_exact (c : Consts V) (R : Flt.Rounding) (h : Hist V) (hs : Sane h) (hg : Good (fun N n k => N ≤ n * k) h) (m : Nat) (hm : 1 ≤ m)
    (hm' : m ≤ (values h).length) (allow : Bool) (hb : (values h).length ≤ bound h ∨ allow = true) :
    ∃ s s' x, eval c h = .ok s ∧ getQuantile c R s (R.rnd (m / (values h).length)) allow = .ok (s', some x) ∧ AtPos (values h) x m := by
  have hne : values h ≠ [] := List.length_pos_iff.1 (by omega)
  have hgc : Good (Covers 0) h := hg.mono hs fun N n k hn hN => Chosen.covers (by omega)
    ⟨le_refl 0, 2, le_refl 2, Or.inl rfl, by
      rw [show n + 2 - 2 = n by omega, show 2 - 1 = 1 from rfl, Nat.choose_one_right]
      calc N ≤ n * k := hN
        _ = k * n := Nat.mul_comm _ _⟩
  have hNq : (0 : Rat) < (values h).length := by exact_mod_cast (by omega : 0 < (values h).length)
  have hmq : (0 : Rat) ≤ m := Nat.cast_nonneg _
  have hle : (m : Rat) ≤ (values h).length := by exact_mod_cast hm'
  have q1 : R.rnd (m / (values h).length) ≤ 1 := R.le_of_double (by simpa using Flt.isDouble_int 1 (by norm_num)) (by rw [div_le_one hNq]; exact hle)
  have q0 : 0 ≤ R.rnd (m / (values h).length) := R.ge_of_double (by simpa using Flt.isDouble_int 0 (by norm_num)) (div_nonneg hmq (le_of_lt hNq))
  obtain ⟨s, xl, xh, s', x, e, md, e', -, hx, g1, g2⟩ := getQuantile_ok c R hs hne q0 q1 hb
  obtain ⟨lo, hi⟩ := md.err hgc
  rw [mul_zero, zero_mul] at lo hi
  have lo0 : s.lo = 0 := by
    rcases lo with h | h
    · exact h
    · exact absurd h (not_lt.2 (Nat.cast_nonneg _))
  have hi0 : s.hi = 0 := by
    have : (s.hi : Rat) = 0 := le_antisymm hi (Nat.cast_nonneg _)
    exact_mod_cast this
  rw [lo0, targetIndex_div R hm hm' (sane_length hs) q1] at g1
  rw [hi0, targetIndex_div R hm hm' (sane_length hs) q1] at g2
  exact ⟨s, s', x, e, e', atPos_of_counts (by omega) (by omega)⟩

/-- Two sketches of at most 30 values, merged: the exact median of 30 values. -/
example : Sane (.merge (adds (.new 3 10 1000 true) (List.range 16)) (adds (.new 2 10 1000 false) (List.range 14)) : Hist Nat) ∧
    Good (fun N n k => N ≤ n * k) (.merge (adds (.new 3 10 1000 true) (List.range 16)) (adds (.new 2 10 1000 false) (List.range 14)) : Hist Nat) := by
  refine ⟨⟨sane_adds _ _ (by simp [Sane]) (by simp [values]), sane_adds _ _ (by simp [Sane]) (by simp [values]), ?_, Or.inl ?_⟩,
    good_adds 30 _ _ ⟨0, by simp [values], by simp⟩ (by simp [config]) (by simp [values]),
    good_adds 20 _ _ ⟨0, by simp [values], by simp⟩ (by simp [config]) (by simp [values]), 30, ?_, ?_⟩
  · simp [values, values_adds]
  · simp [values, values_adds]
  · simp [values, values_adds]
  · show 30 ≤ (config (adds _ _)).1 * (config (adds _ _)).2
    rw [(config_adds _ _).1]; simp [config]

/-- C30. With sizes that meet the bound of the paper for `ε`, the position of the answer is within `ε` times the number of values of the position asked for, and within
`D * ε` if sketches were merged `D - 1` deep. The `2 / 10^15` is the double arithmetic of `getQuantile`. -/
theorem quantile_error (c : Consts V) (R : Flt.Rounding) (h : Hist V) (hs : Sane h) (hne : values h ≠ []) (ε : Rat) (hg : Good (Chosen ε) h) (q : Rat) (h0 : 0 ≤ q)
    (h1 : q ≤ 1) (allow : Bool) (hb : (values h).length ≤ bound h ∨ allow = true) :
    ∃ (s s' : Sk V) (x : V) (j : Nat), eval c h = .ok s ∧ getQuantile c R s q allow = .ok (s', some x) ∧ AtPos (values h) x j ∧
      ((values h).length : Rat) * (q - (depth h + 1) * ε - 2 / 10 ^ 15) ≤ j ∧
      (j = 1 ∨ (j : Rat) < (values h).length * (q + (depth h + 1) * ε) + 1) :=
  getQuantile_pos c R hs hne h0 h1 hb (hg.mono hs fun _ _ _ hn hc => Chosen.covers (by omega) hc)

example : Sane twice ∧ values twice ≠ [] ∧ Good (Chosen (1 / 8)) twice ∧ depth twice = 1 :=
  ⟨twice_sane, by simp [twice, values, values_adds], twice_good, by simp [twice, depth, (config_adds _ _).2.2]⟩

/-- C30. An empty sketch answers NaN to every question, valid or not. -/
theorem quantile_empty (c : Consts V) (R : Flt.Rounding) (h : Hist V) (hs : Sane h) (he : values h = []) (q : Rat) (allow : Bool) :
    ∃ s, eval c h = .ok s ∧ getQuantile c R s q allow = .ok (s, none) := by
  obtain ⟨s, xl, xh, e, m⟩ := eval_ok c h hs
  refine ⟨s, e, ?_⟩
  unfold getQuantile
  rw [if_pos (by rw [m.count, he]; rfl)]
  rfl

example : Sane (.reset twice) ∧ values (.reset twice) = [] := ⟨twice_sane, rfl⟩

/-- Sizes that the public constructor chose for the error `ε` and up to `N` values. -/
def Built (R : Flt.Rounding) (ε : Rat) (N n k : Nat) : Prop := ∃ inN, inN ≤ 10 ^ 13 ∧ N = max 100 inN ∧ ctor R.rnd ε inN = .ok (n, k)

/-- C90. The guarantee of the documentation, for sketches with the sizes that the public constructor chooses. -/
theorem documented_error (c : Consts V) (R : Flt.Rounding) (h : Hist V) (hs : Sane h) (hne : values h ≠ []) (ε : Rat) (hε : 0 ≤ ε)
    (hg : Good (fun N n k => Built R ε N n k ∧ 2 * ε * N ≤ 1500000000) h) (q : Rat) (h0 : 0 ≤ q) (h1 : q ≤ 1) (allow : Bool)
    (hb : (values h).length ≤ bound h ∨ allow = true) :
    ∃ (s s' : Sk V) (x : V) (j : Nat), eval c h = .ok s ∧ getQuantile c R s q allow = .ok (s', some x) ∧ AtPos (values h) x j ∧
      ((values h).length : Rat) * (q - (depth h + 1) * ε - 2 / 10 ^ 15) ≤ j ∧
      (j = 1 ∨ (j : Rat) < (values h).length * (q + (depth h + 1) * ε) + 1) :=
  getQuantile_pos c R hs hne h0 h1 hb (hg.mono hs fun _ _ _ _ hc => by
    obtain ⟨⟨inN, h1, rfl, h2⟩, h3⟩ := hc
    exact ctor_covers R hε h1 h3 h2)

/-- C90. Without a limit on the error times the number of values, the constructor stops its search for the height of the tree at 40, and the guarantee is for twice the
error. -/
theorem documented_error_partial (c : Consts V) (R : Flt.Rounding) (h : Hist V) (hs : Sane h) (hne : values h ≠ []) (ε : Rat) (hε : 0 ≤ ε)
    (hg : Good (Built R ε) h) (q : Rat) (h0 : 0 ≤ q) (h1 : q ≤ 1) (allow : Bool) (hb : (values h).length ≤ bound h ∨ allow = true) :
    ∃ (s s' : Sk V) (x : V) (j : Nat), eval c h = .ok s ∧ getQuantile c R s q allow = .ok (s', some x) ∧ AtPos (values h) x j ∧
      ((values h).length : Rat) * (q - (depth h + 1) * (2 * ε) - 2 / 10 ^ 15) ≤ j ∧
      (j = 1 ∨ (j : Rat) < (values h).length * (q + (depth h + 1) * (2 * ε)) + 1) :=
  getQuantile_pos c R hs hne h0 h1 hb (hg.mono hs fun _ _ _ _ hc => by
    obtain ⟨inN, h1, rfl, h2⟩ := hc
    exact (ctor_covers_two R hε h1 h2).1)

/-- The default sizes, for an error of a hundredth and 10^9 values, with 100 values added. -/
example (R : Flt.Rounding) : ∃ n k, let h : Hist Nat := adds (.new n k 1000000000 true) (List.range 100)
    Sane h ∧ values h ≠ [] ∧ 0 ≤ R.rnd (1 / 100) ∧ Good (fun N n k => Built R (R.rnd (1 / 100)) N n k ∧ 2 * R.rnd (1 / 100) * N ≤ 1500000000) h ∧
      Good (Built R (R.rnd (1 / 100))) h := by
  obtain ⟨n, k, e, h1, h2, h3, h4⟩ := ctor_default R
  have hr := R.err (1 / 100)
  rw [abs_of_pos (by norm_num : (0 : Rat) < 1 / 100), abs_le] at hr
  have hB : Built R (R.rnd (1 / 100)) 1000000000 n k := ⟨1000000000, by norm_num, rfl, e⟩
  refine ⟨n, k, sane_adds _ _ ⟨by omega, h3, h2, h4⟩ (by simp [values]), by simp [values_adds], by norm_num at hr; linarith [hr.1], ?_, ?_⟩
  · have hP : Built R (R.rnd (1 / 100)) 1000000000 n k ∧ 2 * R.rnd (1 / 100) * (1000000000 : Nat) ≤ 1500000000 := ⟨hB, by norm_num at hr ⊢; linarith [hr.2]⟩
    exact good_adds 1000000000 _ _ ⟨1000000000, by simp [values], hP⟩ hP (by simp [values])
  · exact good_adds 1000000000 _ _ ⟨1000000000, by simp [values], hB⟩ hB (by simp [values])

/-- Which of the outcomes a computation has. -/
def tag {α : Type} : Res α → Nat
  | .ok _ => 0
  | .abort => 1
  | .ub => 2

theorem tag_ok {α : Type} {r : Res α} (h : tag r = 0) : ∃ x, r = .ok x := by
  cases r with
  | ok x => exact ⟨x, rfl⟩
  | abort => cases h
  | ub => cases h

theorem tag_ub {α : Type} {r : Res α} (h : tag r = 2) : r = .ub := by
  cases r with
  | ok x => cases h
  | abort => cases h
  | ub => rfl

/-- C88 is false: `StatsQuantile(0.1, 5000)` is given 13 buffers of 11 values; with 122 values added, `getQuantile` writes past the end of `collapse_pos`. -/
theorem collapse_pos_overflow (R : Flt.Rounding) : ctor R.rnd (R.rnd (1 / 10)) 5000 = .ok (13, 11) ∧
    (∃ s, eval ⟨0, 1000000⟩ (adds (.new 13 11 5000 true) (List.range 122)) = .ok s) ∧
    eval ⟨0, 1000000⟩ (.query (adds (.new 13 11 5000 true) (List.range 122)) 60 false) = .ub :=
  ⟨ctor_5000 R, tag_ok (by decide +kernel), tag_ub (by decide +kernel)⟩

/-- Calls on sketches of the sizes `n` and `k`: fewer than `10^14` values, questions within the bound (or allowed past it), and only sketches with values are merged
into others. -/
def Within (n k : Nat) : Hist V → Prop
  | .new n' k' _ _ => n' = n ∧ k' = k
  | .add h v => Within n k h ∧ (values (.add h v)).length < 100000000000000
  | .merge h h' => Within n k h ∧ Within n k h' ∧ (values (.merge h h')).length < 100000000000000 ∧ values h' ≠ []
  | .reset h => Within n k h
  | .query h t a => Within n k h ∧ ((values h).length ≤ bound h ∨ a = true) ∧ (values h ≠ [] → t < (values h).length)

theorem Within.sane {n k : Nat} (h1 : 1 < n) (h2 : 10 ≤ k) (h3 : n ≤ k) (h4 : k < 2147483648) : ∀ {h : Hist V}, Within n k h → Sane h
  | .new _ _ _ _, ⟨e, e'⟩ => by subst e e'; exact ⟨h1, h2, h3, h4⟩
  | .add _ _, h => ⟨Within.sane h1 h2 h3 h4 h.1, h.2⟩
  | .merge _ _, h => ⟨Within.sane h1 h2 h3 h4 h.1, Within.sane h1 h2 h3 h4 h.2.1, h.2.2.1, Or.inl h.2.2.2⟩
  | .reset h, h' => Within.sane (h := h) h1 h2 h3 h4 h'
  | .query _ _ _, h => ⟨Within.sane h1 h2 h3 h4 h.1, h.2⟩

/-- C88. The sizes of the default arguments are safe: no call on such sketches leaves their arrays or aborts. -/
theorem default_sketch_safe_partial (c : Consts V) (R : Flt.Rounding) : ∃ n k, ctor R.rnd (R.rnd (1 / 100)) 1000000000 = .ok (n, k) ∧
    ∀ h : Hist V, Within n k h → ∃ s, eval c h = .ok s := by
  obtain ⟨n, k, e, h1, h2, h3, h4⟩ := ctor_default R
  refine ⟨n, k, e, fun h hw => ?_⟩
  obtain ⟨s, _, _, e', _⟩ := eval_ok c h (hw.sane (by omega) h3 h2 h4)
  exact ⟨s, e'⟩

/-- C88. More generally, it is enough that there are no more buffers than values in one. -/
theorem sketch_safe_partial (c : Consts V) (R : Flt.Rounding) (ε : Rat) (inN n k : Nat) (hε : 0 ≤ ε) (hN : inN ≤ 10 ^ 13) (hc : ctor R.rnd ε inN = .ok (n, k))
    (hnk : n ≤ k) (h : Hist V) (hw : Within n k h) : ∃ s, eval c h = .ok s := by
  obtain ⟨h1, -, h3, h4, -⟩ := ctor_spec R hε hN hc
  obtain ⟨s, _, _, e', _⟩ := eval_ok c h (hw.sane (by omega) h3 hnk h4)
  exact ⟨s, e'⟩

example : ∀ n k, Within n k (.query (adds (.new n k 1000 true) (List.range 100)) 50 false : Hist Nat) := by
  intro n k
  have : ∀ (vs : List Nat) (h : Hist Nat), Within n k h → (values h).length + vs.length < 100000000000000 → Within n k (adds h vs) := by
    intro vs
    induction vs with
    | nil => exact fun _ h _ => h
    | cons v vs ih =>
      intro h hw hl
      rw [List.length_cons] at hl
      exact ih (.add h v) ⟨hw, by simp [values]; omega⟩ (by simp [values]; omega)
  exact ⟨this _ _ ⟨rfl, rfl⟩ (by simp [values]), by simp [values_adds, values, (config_adds _ _).2.1, bound], by simp [values_adds, values]⟩

/-- C89 is false: merging an empty sketch that allocates lazily (the default) into one with values reads `all_buffers[-1]`. -/
theorem merge_empty_ub (c : Consts V) (h : Hist V) (hs : Sane h) (hne : values h ≠ []) (n k b : Nat) (hn : 1 < n) (hk : 10 ≤ k) :
    eval c (.merge h (.new n k b true)) = .ub := by
  obtain ⟨s, xl, xh, e, m⟩ := eval_ok c h hs
  obtain ⟨bs, last, ⟨hB, hS⟩, hR, -, hl⟩ := m.inv
  have hcond : ¬((s.cur1 = 0 ∨ (s.cur1 = 1 ∧ s.pos = 0)) ∧ s.size = k ∧ s.slots.length = n) := by
    rintro ⟨h1, -⟩
    apply hne
    have ht := hR.total
    rcases hS with ⟨g1, g2, rfl, rfl⟩ | ⟨g1, g2, _⟩
    · exact List.length_eq_zero_iff.1 (by simpa [wsum] using ht.symm)
    · have hb : bs = [] := List.length_eq_zero_iff.1 (by omega)
      subst hb
      exact List.length_eq_zero_iff.1 (by simp only [wsum, List.map_nil, List.sum_nil, Nat.zero_mul] at ht; omega)
  rw [eval, e, Res.bind_ok, eval, new, decide_eq_true (show n > 1 from hn), decide_eq_true (show k ≥ 10 from hk)]
  obtain ⟨n', rfl⟩ : ∃ n', n = n' + 1 := ⟨n - 1, by omega⟩
  simp only [Res.require_true, Res.bind_ok, Res.pure_eq, merge, initBuffers, List.replicate_succ, List.map_cons]
  rw [if_neg (by simpa using hcond)]
  simp [expandFull]

/-- C89. An empty sketch that allocated its buffers can be merged, and changes nothing. -/
theorem merge_empty_partial (c : Consts V) (h : Hist V) (hs : Sane h) (hne : values h ≠ []) (n k b : Nat) (hn : 1 < n) (hk : 10 ≤ k) :
    eval c (.merge h (.new n k b false)) = eval c h := by
  obtain ⟨s, xl, xh, e, m⟩ := eval_ok c h hs
  obtain ⟨bs, last, ⟨hB, hS⟩, hR, -, hl⟩ := m.inv
  have hcond : ¬((s.cur1 = 0 ∨ (s.cur1 = 1 ∧ s.pos = 0)) ∧ s.size = k ∧ s.slots.length = n) := by
    rintro ⟨h1, -⟩
    apply hne
    have ht := hR.total
    rcases hS with ⟨g1, g2, rfl, rfl⟩ | ⟨g1, g2, _⟩
    · exact List.length_eq_zero_iff.1 (by simpa [wsum] using ht.symm)
    · have hb : bs = [] := List.length_eq_zero_iff.1 (by omega)
      subst hb
      exact List.length_eq_zero_iff.1 (by simp only [wsum, List.map_nil, List.sum_nil, Nat.zero_mul] at ht; omega)
  rw [eval, e, Res.bind_ok, eval, new, decide_eq_true (show n > 1 from hn), decide_eq_true (show k ≥ 10 from hk)]
  obtain ⟨n', rfl⟩ : ∃ n', n = n' + 1 := ⟨n - 1, by omega⟩
  simp only [Res.require_true, Res.bind_ok, Res.pure_eq, merge, initBuffers, List.replicate_succ, List.map_cons]
  rw [if_neg (by simpa using hcond)]
  simp [expandFull, PQ.rd, expandLast, nonNull, initSlot, cells, addQuantiles]

example : Sane twice ∧ values twice ≠ [] := ⟨twice_sane, by simp [twice, values, values_adds]⟩

end Verif.Quantile
