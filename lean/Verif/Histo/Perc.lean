import Verif.Histo.Lemmas3

/-! # Lemmas about percentiles -/

namespace Verif.Histo

open Verif

/-! ## Counts -/

theorem at_count (f : Rat → Nat) (i : Nat) : ∀ vs : List Rat, at' i (vs.map fun v => (f v, (1 : Nat))) = vs.countP fun v => decide (f v = i)
  | [] => rfl
  | v :: vs => by
    rw [List.map_cons, at_cons, at_count f i vs, List.countP_cons]
    by_cases h : f v = i
    · simp [h]; omega
    · simp [h]

theorem take_succ_sum {b : List Nat} {i x : Nat} (h : b[i]? = some x) : (b.take (i + 1)).sum = (b.take i).sum + x := by
  rw [List.take_add_one, h]
  simp

theorem cum_tally (f : Rat → Nat) (n : Nat) (vs : List Rat) : ∀ b, b ≤ n →
    ((tally n (vs.map fun v => (f v, (1 : Nat)))).take b).sum = vs.countP fun v => decide (f v < b)
  | 0, _ => by simp
  | b + 1, h => by
    rw [take_succ_sum (tally_get _ (by omega : b < n)), cum_tally f n vs b (by omega), at_count]
    clear h
    induction vs with
    | nil => rfl
    | cons v vs ih =>
      simp only [List.countP_cons, decide_eq_true_eq]
      by_cases h1 : f v < b
      · rw [if_pos h1, if_neg (by omega), if_pos (by omega)]; omega
      · by_cases h2 : f v = b
        · rw [if_neg h1, if_pos h2, if_pos (by omega)]; omega
        · rw [if_neg h1, if_neg h2, if_neg (by omega)]; omega

theorem sum_tally (f : Rat → Nat) (n : Nat) (vs : List Rat) (h : ∀ v ∈ vs, f v < n) : (tally n (vs.map fun v => (f v, (1 : Nat)))).sum = vs.length := by
  have := cum_tally f n vs n (le_refl _)
  rw [List.take_of_length_le (by simp)] at this
  rw [this, List.countP_eq_length]
  intro v hv
  exact decide_eq_true (h v hv)

/-- In an ordered list what satisfies a downward closed predicate comes first. -/
theorem sorted_prefix {p : Rat → Bool} (hp : ∀ a b, a ≤ b → p b = true → p a = true) : ∀ {s : List Rat}, s.Pairwise (· ≤ ·) → ∀ {j : Nat} {v : Rat},
    s[j]? = some v → (p v = true ↔ j < s.countP p)
  | [], _, _, _, h => by cases h
  | a :: s, hs, j, v, h => by
    obtain ⟨h1, h2⟩ := List.pairwise_cons.1 hs
    cases j with
    | zero =>
      rw [List.getElem?_cons_zero, Option.some.injEq] at h
      subst h
      rw [List.countP_cons]
      by_cases hpa : p a = true
      · simp [hpa]
      · have : s.countP p = 0 := by
          rw [List.countP_eq_zero]
          intro x hx hpx
          exact hpa (hp _ _ (h1 x hx) hpx)
        simp [hpa, this]
    | succ j =>
      rw [List.getElem?_cons_succ] at h
      have ih := sorted_prefix hp h2 h
      rw [List.countP_cons]
      by_cases hpa : p a = true
      · rw [ih]; simp [hpa]
      · have : s.countP p = 0 := by
          rw [List.countP_eq_zero]
          intro x hx hpx
          exact hpa (hp _ _ (h1 x hx) hpx)
        rw [ih]
        simp [hpa, this]

theorem sorted_perm (vs : List Rat) : (sorted vs).Perm vs := List.mergeSort_perm _ _

theorem sorted_pairwise (vs : List Rat) : (sorted vs).Pairwise (· ≤ ·) := by
  have := List.pairwise_mergeSort (le := fun a b : Rat => decide (a ≤ b)) (fun a b c h1 h2 => by
      rw [decide_eq_true_eq] at *; exact le_trans h1 h2) (fun a b => by
      rw [Bool.or_eq_true, decide_eq_true_eq, decide_eq_true_eq]; exact le_total a b) vs
  refine List.Pairwise.imp ?_ this
  intro a b h
  exact of_decide_eq_true h

theorem key_mono {low w : Rat} (hw : 0 < w) (n : Nat) {a b : Rat} (h : a ≤ b) : key low w n a ≤ key low w n b := by
  have : ⌊(a - low) / w⌋ ≤ ⌊(b - low) / w⌋ := Int.floor_mono (div_le_div_of_nonneg_right (by linarith) (le_of_lt hw))
  unfold key
  omega

/-! ## The loop -/

theorem percLoop_ok (r : Rat → Rat) (eps T : Rat) (bins : List Nat) : ∀ (k bin : Nat), bins.length = bin + 1 + k →
    gt r eps T (r ((bins.take bins.length).sum : Nat)) = false →
    ∃ b, percLoop r eps T (bins.drop (bin + 1)) (bins.take bin).sum (bins.take (bin + 1)).sum bin = .ok ((bins.take b).sum, (bins.take (b + 1)).sum, b) ∧
      bin ≤ b ∧ b < bins.length ∧ gt r eps T (r ((bins.take (b + 1)).sum : Nat)) = false ∧
      ∀ i, bin ≤ i → i < b → gt r eps T (r ((bins.take (i + 1)).sum : Nat)) = true
  | k, bin, hl, hg => by
    by_cases hc : gt r eps T (r ((bins.take (bin + 1)).sum : Nat)) = true
    · cases k with
      | zero => rw [hl] at hg; rw [hc] at hg; cases hg
      | succ k =>
        have hlt : bin + 1 < bins.length := by omega
        obtain ⟨b, h1, h2, h3, h4, h5⟩ := percLoop_ok r eps T bins k (bin + 1) (by omega) hg
        refine ⟨b, ?_, by omega, h3, h4, fun i hi hib => ?_⟩
        · rw [percLoop.eq_def]; dsimp only; rw [if_pos hc, List.drop_eq_getElem_cons hlt]
          rw [take_succ_sum (i := bin + 1) (List.getElem?_eq_getElem hlt)] at h1
          exact h1
        · rcases Nat.lt_or_ge bin i with h | h
          · exact h5 i h hib
          · have : i = bin := by omega
            rw [this]; exact hc
    · refine ⟨bin, ?_, le_refl _, by omega, by simpa using hc, fun i hi hib => by omega⟩
      rw [percLoop.eq_def]; dsimp only; rw [if_neg hc]

/-- The formula at the end of `percentile`. -/
def place (r : Rat → Rat) (low width T : Rat) (lowend highend b : Nat) : Rat :=
  r (low + r (width * r (r b + r (r (T - r lowend) / r ((highend - lowend : Nat) : Rat)))))

theorem gt_le {r : Rat → Rat} {eps a b : Rat} (h : a ≤ b) : gt r eps a b = false := by
  unfold gt
  rw [show decide (b < a) = false from decide_eq_false (not_lt.2 h)]
  rfl

theorem perc_any (r : Rat → Rat) (eps : Rat) {h : H} {p : Rat} (h0 : 0 ≤ p) (h1 : p ≤ 1) (hl : 0 < h.bins.length) (hT : r (p * r h.st.number) ≤ r (h.bins.sum : Nat)) :
    ∃ b, b < h.bins.length ∧ gt r eps (r (p * r h.st.number)) (r ((h.bins.take (b + 1)).sum : Nat)) = false ∧
      (∀ i, i < b → gt r eps (r (p * r h.st.number)) (r ((h.bins.take (i + 1)).sum : Nat)) = true) ∧
      ((h.bins.take (b + 1)).sum = (h.bins.take b).sum → b = 0) ∧
      percentile r eps h p = .ok (if (h.bins.take (b + 1)).sum = (h.bins.take b).sum then 0
        else place r h.low h.width (r (p * r h.st.number)) (h.bins.take b).sum (h.bins.take (b + 1)).sum b) := by
  obtain ⟨b, e, -, g1, g2, g3⟩ := percLoop_ok r eps (r (p * r h.st.number)) h.bins (h.bins.length - 1) 0 (by omega) (by
    rw [List.take_length]; exact gt_le hT)
  have hz : (h.bins.take (b + 1)).sum = (h.bins.take b).sum → b = 0 := by
    intro he
    cases b with
    | zero => rfl
    | succ b =>
      have := g3 b (by omega) (by omega)
      rw [← he, g2] at this
      cases this
  refine ⟨b, g1, g2, fun i => g3 i (by omega), hz, ?_⟩
  unfold percentile
  rw [show decide (0 ≤ p ∧ p ≤ 1) = true from decide_eq_true ⟨h0, h1⟩, Res.require_true, Res.bind_ok]
  simp only []
  rw [PQ.rd_eq 0 _ _ hl, Res.bind_ok]
  have e0 : (h.bins.take (0 + 1)).sum = PQ.g 0 h.bins 0 := by
    rw [take_succ_sum (x := PQ.g 0 h.bins 0)]
    · simp
    · unfold PQ.g; rw [List.getD_eq_getElem?_getD, List.getElem?_eq_getElem hl]; rfl
  rw [← e0]
  have e' : percLoop r eps (r (p * r h.st.number)) (h.bins.drop 1) 0 (h.bins.take (0 + 1)).sum 0 = _ := e
  rw [e', Res.bind_ok]
  show (if (h.bins.take (b + 1)).sum = (h.bins.take b).sum then _ else _) = _
  by_cases hc : (h.bins.take (b + 1)).sum = (h.bins.take b).sum
  · rw [if_pos hc, if_pos hc]
    rw [show decide (b = 0) = true from decide_eq_true (hz hc)]
    rfl
  · rw [if_neg hc, if_neg hc]
    rfl

/-! ## Exact arithmetic -/

theorem gt_true {eps a b : Rat} (h : gt id eps a b = true) : b < a := by
  unfold gt at h
  rw [Bool.and_eq_true, decide_eq_true_eq] at h
  exact h.1

theorem gt_false {eps a b : Rat} (hb : 0 ≤ b) (h : gt id eps a b = false) : a ≤ b ∨ a - b < eps * max b 1 := by
  by_cases hab : a ≤ b
  · exact Or.inl hab
  · right
    have hab := not_le.1 hab
    unfold gt at h
    rw [show decide (b < a) = true from decide_eq_true hab, Bool.true_and, Bool.not_eq_false'] at h
    unfold eq at h
    rw [min_eq_right (by rw [abs_of_nonneg hb, abs_of_pos (by linarith)]; linarith), abs_of_nonneg hb, show |id (a - b)| = a - b from abs_of_pos (by simp; exact hab)] at h
    by_cases h0 : b = 0
    · rw [if_pos h0, decide_eq_true_eq] at h
      rw [h0] at h ⊢
      rw [max_eq_right (by norm_num)]
      linarith
    · have hbp : 0 < b := lt_of_le_of_ne hb (Ne.symm h0)
      rw [if_neg h0, decide_eq_true_eq] at h
      have h : (a - b) / b < eps := h
      rw [div_lt_iff₀ hbp] at h
      have he : 0 < eps := by
        by_contra hne
        have : eps * b ≤ 0 := mul_nonpos_of_nonpos_of_nonneg (not_lt.1 hne) (le_of_lt hbp)
        linarith
      calc a - b < eps * b := h
        _ ≤ eps * max b 1 := mul_le_mul_of_nonneg_left (le_max_left _ _) (le_of_lt he)

theorem gt_mono {eps a a' b : Rat} (hb : 0 ≤ b) (h : gt id eps a b = true) (haa : a ≤ a') : gt id eps a' b = true := by
  have hab := gt_true h
  unfold gt at h ⊢
  rw [show decide (b < a) = true from decide_eq_true hab, Bool.true_and, Bool.not_eq_true'] at h
  rw [show decide (b < a') = true from decide_eq_true (by linarith), Bool.true_and, Bool.not_eq_true']
  unfold eq at h ⊢
  rw [min_eq_right (by rw [abs_of_nonneg hb, abs_of_pos (by linarith)]; linarith), abs_of_nonneg hb, show |id (a - b)| = a - b from abs_of_pos (by simp; exact hab)] at h
  rw [min_eq_right (by rw [abs_of_nonneg hb, abs_of_pos (by linarith)]; linarith), abs_of_nonneg hb, show |id (a' - b)| = a' - b from abs_of_pos (by simp; linarith)]
  by_cases h0 : b = 0
  · rw [if_pos h0, decide_eq_false_iff_not] at h ⊢
    linarith
  · have hbp : 0 < b := lt_of_le_of_ne hb (Ne.symm h0)
    rw [if_neg h0, decide_eq_false_iff_not] at h ⊢
    have h : ¬(a - b) / b < eps := h
    show ¬(a' - b) / b < eps
    rw [div_lt_iff₀ hbp] at h ⊢
    linarith

/-- Of whole numbers that are not too large `gt` is the usual comparison. -/
theorem gt_nat {eps : Rat} {a b : Nat} (hb : eps * b ≤ 1) (he1 : eps ≤ 1) : gt id eps (a : Rat) (b : Rat) = decide (b < a) := by
  by_cases hab : b < a
  · rw [decide_eq_true hab]
    cases hg : gt id eps (a : Rat) (b : Rat) with
    | true => rfl
    | false =>
      have h1 : (b : Rat) + 1 ≤ a := by exact_mod_cast hab
      rcases gt_false (by exact_mod_cast Nat.zero_le b) hg with h | h
      · linarith
      · have : eps * max (b : Rat) 1 ≤ 1 := by
          rcases le_total (b : Rat) 1 with h' | h'
          · rw [max_eq_right h']; linarith
          · rw [max_eq_left h']; exact hb
        linarith
  · rw [decide_eq_false hab]
    exact gt_le (by exact_mod_cast not_lt.1 hab)

/-- Where the percentile is: `T = p * N`. -/
structure At (h : H) (vs : List Rat) (eps T x : Rat) (b : Nat) : Prop where
  lt : b < h.n
  low : ((vs.countP fun v => decide (key h.low h.width h.n v < b) : Nat) : Rat) < T
  stop : gt id eps T ((vs.countP fun v => decide (key h.low h.width h.n v < b + 1) : Nat) : Rat) = false
  go : ∀ i, i < b → gt id eps T ((vs.countP fun v => decide (key h.low h.width h.n v < i + 1) : Nat) : Rat) = true
  filled : vs.countP (fun v => decide (key h.low h.width h.n v < b)) < vs.countP (fun v => decide (key h.low h.width h.n v < b + 1))
  eq : x = h.low + h.width * (b + (T - (vs.countP fun v => decide (key h.low h.width h.n v < b) : Nat)) /
    (((vs.countP fun v => decide (key h.low h.width h.n v < b + 1) : Nat) : Rat) - (vs.countP fun v => decide (key h.low h.width h.n v < b) : Nat)))

theorem Inv.sum {h : H} {vs : List Rat} (hI : Inv h vs) : h.bins.sum = vs.length ∧ h.st.number = vs.length ∧ h.bins.length = h.n := by
  refine ⟨?_, ?_, ?_⟩
  · rw [hI.bins, sum_tally _ _ _ fun v _ => key_lt hI.n v]
  · rw [hI.number, (Stats.eval_any id _).1, Stats.values_adds]; rfl
  · rw [hI.bins, tally_length]

theorem perc_at {h : H} {vs : List Rat} (hI : Inv h vs) {eps p : Rat} (he : 0 < eps) (h1 : p ≤ 1) (hp : eps ≤ p * vs.length) :
    ∃ x b, percentile id eps h p = .ok x ∧ At h vs eps (p * vs.length) x b := by
  obtain ⟨s1, s2, s3⟩ := hI.sum
  have hN : (0 : Rat) ≤ vs.length := by exact_mod_cast Nat.zero_le _
  have hp0 : 0 < p := by
    by_contra hc
    have : p * vs.length ≤ 0 := mul_nonpos_of_nonpos_of_nonneg (not_lt.1 hc) hN
    linarith
  obtain ⟨b, b1, b2, b3, b4, b5⟩ := perc_any id eps (h := h) (le_of_lt hp0) h1 (by rw [s3]; exact hI.n) (by
    show p * ((h.st.number : Nat) : Rat) ≤ ((h.bins.sum : Nat) : Rat)
    rw [s1, s2]
    nlinarith)
  have cum : ∀ i, i ≤ h.n → (h.bins.take i).sum = vs.countP fun v => decide (key h.low h.width h.n v < i) := fun i hi => by
    rw [hI.bins, cum_tally _ _ _ i hi]
  rw [s3] at b1
  have hT : (id (p * id (h.st.number : Rat)) : Rat) = p * vs.length := by rw [s2]; rfl
  rw [hT] at b2 b3 b5
  rw [cum b (by omega), cum (b + 1) (by omega)] at b5 b4
  have hlow : ((vs.countP fun v => decide (key h.low h.width h.n v < b) : Nat) : Rat) < p * vs.length := by
    cases b with
    | zero => simp; linarith
    | succ b =>
      have := b3 b (by omega)
      rw [cum (b + 1) (by omega)] at this
      exact gt_true this
  have hmono : vs.countP (fun v => decide (key h.low h.width h.n v < b)) ≤ vs.countP (fun v => decide (key h.low h.width h.n v < b + 1)) := by
    apply List.countP_mono_left
    intro v _ hv
    rw [decide_eq_true_eq] at hv ⊢
    omega
  have hne : vs.countP (fun v => decide (key h.low h.width h.n v < b + 1)) ≠ vs.countP (fun v => decide (key h.low h.width h.n v < b)) := by
    intro hc
    have hb0 := b4 hc
    subst hb0
    rw [cum (0 + 1) (by omega), hc] at b2
    have : vs.countP (fun v => decide (key h.low h.width h.n v < 0)) = 0 := by simp
    rw [this] at b2
    rcases gt_false (b := ((0 : Nat) : Rat)) (by norm_num) b2 with h' | h'
    · push_cast at h'; linarith
    · push_cast at h'
      rw [max_eq_right (by norm_num)] at h'
      linarith
  rw [if_neg hne] at b5
  refine ⟨_, b, b5, b1, hlow, ?_, fun i hi => ?_, by omega, ?_⟩
  · rw [← cum (b + 1) (by omega)]; exact b2
  · rw [← cum (i + 1) (by omega)]; exact b3 i hi
  · unfold place
    simp only [id]
    rw [Nat.cast_sub hmono]

theorem At.bounds {h : H} {vs : List Rat} {eps T x : Rat} {b : Nat} (hA : At h vs eps T x b) (hw : 0 < h.width) (he : 0 < eps) :
    h.low + b * h.width < x ∧ x ≤ h.low + (b + 1) * h.width + eps * vs.length * h.width ∧
      (T ≤ (vs.countP fun v => decide (key h.low h.width h.n v < b + 1) : Nat) → x ≤ h.low + (b + 1) * h.width) := by
  obtain ⟨hb, h1, h2, h3, h4, h5⟩ := hA
  have hle : vs.countP (fun v => decide (key h.low h.width h.n v < b + 1)) ≤ vs.length := List.countP_le_length
  generalize vs.countP (fun v => decide (key h.low h.width h.n v < b)) = c at h1 h4 h5 ⊢
  generalize vs.countP (fun v => decide (key h.low h.width h.n v < b + 1)) = d at h2 h4 h5 hle ⊢
  have h4' : (c : Rat) + 1 ≤ d := by exact_mod_cast h4
  have hle' : (d : Rat) ≤ vs.length := by exact_mod_cast hle
  have hdc : (0 : Rat) < d - c := by linarith
  have hd1 : (1 : Rat) ≤ d := by
    have : (0 : Rat) ≤ c := by exact_mod_cast Nat.zero_le c
    linarith
  have hlow : 0 < (T - c) / (d - c) := div_pos (by linarith) hdc
  rw [h5]
  refine ⟨by nlinarith, ?_, fun hT => ?_⟩
  · have : (T - c) / (d - c) ≤ 1 + eps * vs.length := by
      rw [div_le_iff₀ hdc]
      have hen : 0 ≤ eps * vs.length := mul_nonneg (le_of_lt he) (by linarith)
      have hmul : eps * vs.length * 1 ≤ eps * vs.length * (d - c) := mul_le_mul_of_nonneg_left (by linarith) hen
      rcases gt_false (by linarith) h2 with h' | h'
      · nlinarith
      · rw [max_eq_left hd1] at h'
        have : eps * d ≤ eps * vs.length := mul_le_mul_of_nonneg_left hle' (le_of_lt he)
        nlinarith
    nlinarith
  · have : (T - c) / (d - c) ≤ 1 := by
      rw [div_le_iff₀ hdc]; linarith
    nlinarith

/-- The value of rank `k + 1` is in the bin. -/
theorem At.rank {h : H} {vs : List Rat} {eps T x : Rat} {b : Nat} (hA : At h vs eps T x b) (hw : 0 < h.width) {k : Nat}
    (hk1 : vs.countP (fun v => decide (key h.low h.width h.n v < b)) ≤ k) (hk2 : k < vs.countP (fun v => decide (key h.low h.width h.n v < b + 1))) :
    ∃ v, (sorted vs)[k]? = some v ∧ inBin h.low h.width h.n b v = true := by
  have hp := sorted_perm vs
  have hlen : k < (sorted vs).length := by
    rw [hp.length_eq]
    exact lt_of_lt_of_le hk2 List.countP_le_length
  refine ⟨(sorted vs)[k], List.getElem?_eq_getElem hlen, ?_⟩
  have hd : ∀ i, ∀ a c : Rat, a ≤ c → decide (key h.low h.width h.n c < i) = true → decide (key h.low h.width h.n a < i) = true := by
    intro i a c hac hc
    rw [decide_eq_true_eq] at hc ⊢
    exact lt_of_le_of_lt (key_mono hw h.n hac) hc
  have e1 := sorted_prefix (hd b) (sorted_pairwise vs) (List.getElem?_eq_getElem hlen)
  have e2 := sorted_prefix (hd (b + 1)) (sorted_pairwise vs) (List.getElem?_eq_getElem hlen)
  rw [hp.countP_eq, decide_eq_true_eq] at e1 e2
  rw [← key_iff hw hA.lt]
  omega

theorem At.mono {h : H} {vs : List Rat} {eps T T' x x' : Rat} {b b' : Nat} (hA : At h vs eps T x b) (hA' : At h vs eps T' x' b') (hw : 0 < h.width) (hT : T ≤ T') :
    b < b' ∨ b = b' ∧ x ≤ x' := by
  rcases Nat.lt_trichotomy b b' with hb | hb | hb
  · exact Or.inl hb
  · right
    refine ⟨hb, ?_⟩
    subst hb
    rw [hA.eq, hA'.eq]
    have h4 : ((vs.countP fun v => decide (key h.low h.width h.n v < b) : Nat) : Rat) < (vs.countP fun v => decide (key h.low h.width h.n v < b + 1) : Nat) := by
      exact_mod_cast hA.filled
    have := div_le_div_of_nonneg_right (a := T - (vs.countP fun v => decide (key h.low h.width h.n v < b) : Nat)) (b := T' - (vs.countP fun v => decide (key h.low h.width h.n v < b) : Nat))
      (c := ((vs.countP fun v => decide (key h.low h.width h.n v < b + 1) : Nat) : Rat) - (vs.countP fun v => decide (key h.low h.width h.n v < b) : Nat)) (by linarith) (by linarith)
    nlinarith
  · have := hA.go b' hb
    have := gt_mono (by exact_mod_cast Nat.zero_le _) this hT
    rw [hA'.stop] at this
    cases this

end Verif.Histo
