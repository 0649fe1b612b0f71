import Verif.LogHisto.Lemmas

/-! # Totals, percentiles, modes and sums of logarithmic histograms -/

namespace Verif.LogHisto

open Verif Histo

/-! ## Counts -/

theorem at_count {β : Type} (f : β → Nat) (i : Nat) : ∀ vs : List β, at' i (vs.map fun v => (f v, (1 : Nat))) = vs.countP fun v => decide (f v = i)
  | [] => rfl
  | v :: vs => by
    rw [List.map_cons, at_cons, at_count f i vs, List.countP_cons]
    by_cases h : f v = i
    · simp [h, Nat.add_comm]
    · simp [h]

theorem take_succ_sum {b : List Nat} {i x : Nat} (h : b[i]? = some x) : (b.take (i + 1)).sum = (b.take i).sum + x := by
  rw [List.take_add_one, h]
  simp

theorem cum_tally {β : Type} (f : β → Nat) (n : Nat) (vs : List β) : ∀ b, b ≤ n →
    ((tally n (vs.map fun v => (f v, (1 : Nat)))).take b).sum = vs.countP fun v => decide (f v < b)
  | 0, _ => by simp
  | b + 1, h => by
    rw [take_succ_sum (tally_get _ (by omega : b < n)), cum_tally f n vs b (by omega), at_count]
    clear h
    induction vs with
    | nil => rfl
    | cons v vs ih =>
      simp only [List.countP_cons]
      by_cases h1 : f v < b
      · have h2 : f v ≠ b := by omega
        have h3 : f v < b + 1 := by omega
        simp only [h1, h2, h3, decide_true, decide_false, if_true, Bool.false_eq_true, if_false]
        omega
      · by_cases h2 : f v = b
        · have h3 : f v < b + 1 := by omega
          rw [if_neg (by simp [h1]), if_pos (by simp [h2]), if_pos (by simp [h3])]
          omega
        · have h3 : ¬f v < b + 1 := by omega
          simp only [h1, h2, h3, decide_false, Bool.false_eq_true, if_false]
          omega

theorem sum_tally {β : Type} (f : β → Nat) (n : Nat) (vs : List β) (h : ∀ v ∈ vs, f v < n) : (tally n (vs.map fun v => (f v, (1 : Nat)))).sum = vs.length := by
  have := cum_tally f n vs n (le_refl _)
  rw [List.take_of_length_le (by simp)] at this
  rw [this, List.countP_eq_length]
  intro v hv
  simpa using h v hv

/-! ## Totals, in any arithmetic -/

/-- The sum of a tally. -/
theorem tally_sum (n : Nat) : ∀ ks : List (Nat × Nat), (∀ x ∈ ks, x.1 < n) → (tally n ks).sum = (ks.map Prod.snd).sum
  | [], _ => by rw [tally_nil]; simp
  | x :: ks, h => by
    have ih := tally_sum n ks (fun y hy => h y (List.mem_cons_of_mem _ hy))
    have hx := h x (List.mem_cons_self ..)
    rw [List.map_cons, List.sum_cons, ← ih]
    clear ih h
    unfold tally
    rw [show ((List.range n).map fun i => at' i (x :: ks)) = (List.range n).map fun i => (if x.1 = i then x.2 else 0) + at' i ks from
      List.map_congr_left fun i _ => at_cons i x ks]
    rw [List.sum_map_add]
    congr 1
    obtain ⟨k, w⟩ := x
    change k < n at hx
    show ((List.range n).map fun i => if k = i then w else 0).sum = w
    induction n with
    | zero => omega
    | succ n ih =>
      rw [List.range_succ, List.map_append, List.sum_append]
      by_cases hk : k = n
      · subst hk
        have : ((List.range k).map fun i => if k = i then w else 0).sum = 0 := by
          rw [List.sum_eq_zero]
          intro y hy
          obtain ⟨i, hi, rfl⟩ := List.mem_map.1 hy
          rw [List.mem_range] at hi
          rw [if_neg (by omega)]
        rw [this]
        simp
      · rw [ih (by omega)]
        simp [hk]

/-- Any list is a tally. -/
theorem as_tally (b : List Nat) : b = tally b.length ((List.range b.length).map fun i => (i, PQ.g 0 b i)) := by
  refine eq_tally rfl fun i hi => ?_
  rw [List.getElem?_eq_getElem hi]
  congr 1
  have : ∀ n, at' i ((List.range n).map fun j => (j, PQ.g 0 b j)) = if i < n then PQ.g 0 b i else 0 := by
    intro n
    induction n with
    | zero => rfl
    | succ n ih =>
      rw [List.range_succ, List.map_append, at_append, ih]
      simp only [List.map_cons, List.map_nil, at_cons, at_nil, add_zero]
      by_cases h1 : n = i
      · subst h1; simp
      · by_cases h2 : i < n
        · simp [h1, h2, show i < n + 1 by omega]
        · simp [h1, h2, show ¬i < n + 1 by omega]
  rw [this, if_pos hi]
  unfold PQ.g
  rw [List.getD_eq_getElem?_getD, List.getElem?_eq_getElem hi]
  rfl

theorem halveDown_sum {half : Nat} {b : List Nat} (hl : b.length = 2 * half) : ∃ b', halveDown (· + ·) 0 (2 * half) b = .ok b' ∧ b'.length = 2 * half ∧ b'.sum = b.sum := by
  have hb := as_tally b
  have hk : ∀ x ∈ (List.range b.length).map fun i => (i, PQ.g 0 b i), x.1 < 2 * half := by
    intro x hx
    obtain ⟨i, hi, rfl⟩ := List.mem_map.1 hx
    rw [← hl]; exact List.mem_range.1 hi
  have e := halveDown_ok half _ hk
  rw [← hl, ← hb] at e
  refine ⟨_, by rw [← hl]; exact e, by simp [hl], ?_⟩
  conv_rhs => rw [hb]
  rw [hl] at hk ⊢
  rw [tally_sum _ _ hk, tally_sum]
  · rw [List.map_map]; rfl
  · intro x hx
    obtain ⟨y, hy, rfl⟩ := List.mem_map.1 hx
    have := hk y hy
    show half + y.1 / 2 < 2 * half
    omega

theorem halveUp_sum {half : Nat} {b : List Nat} (hl : b.length = 2 * half) : ∃ b', halveUp (· + ·) 0 (2 * half) b = .ok b' ∧ b'.length = 2 * half ∧ b'.sum = b.sum := by
  have hb := as_tally b
  have hk : ∀ x ∈ (List.range b.length).map fun i => (i, PQ.g 0 b i), x.1 < 2 * half := by
    intro x hx
    obtain ⟨i, hi, rfl⟩ := List.mem_map.1 hx
    rw [← hl]; exact List.mem_range.1 hi
  have e := halveUp_ok half _ hk
  rw [← hl, ← hb] at e
  refine ⟨_, by rw [← hl]; exact e, by simp [hl], ?_⟩
  conv_rhs => rw [hb]
  rw [hl] at hk ⊢
  rw [tally_sum _ _ hk, tally_sum]
  · rw [List.map_map]; rfl
  · intro x hx
    obtain ⟨y, hy, rfl⟩ := List.mem_map.1 hx
    have := hk y hy
    show y.1 / 2 < 2 * half
    omega

/-- What holds in any arithmetic of a histogram with `k` values. -/
structure Tot (h : L) (k : Nat) : Prop where
  pos : 0 < h.n
  even : ∃ m, h.n = 2 * m
  len : h.bins.length = h.n
  sum : h.bins.sum = k

theorem scaleDown_tot {A : Ar} {v : ℝ} {k : Nat} : ∀ (m : Nat) (h h' : L), Tot h k → scaleDown A v m h = .ok h' → Tot h' k ∧ h'.count = h.count ∧ h'.n = h.n
  | 0, h, h', hT, e => by
    rw [scaleDown] at e
    split at e
    · cases e
    · cases e; exact ⟨hT, rfl, rfl⟩
  | m + 1, h, h', hT, e => by
    rw [scaleDown] at e
    split at e
    · obtain ⟨half, he⟩ := hT.even
      obtain ⟨b, e1, l1, s1⟩ := halveDown_sum (hT.len.trans he)
      rw [he, e1, Res.bind_ok] at e
      obtain ⟨a1, a2, a3⟩ := scaleDown_tot (A := A) (v := v) (k := k) m _ h' (by exact ⟨by show 0 < 2 * half; rw [← he]; exact hT.pos, ⟨half, rfl⟩, l1, s1.trans hT.sum⟩) e
      exact ⟨a1, a2, a3.trans he.symm⟩
    · cases e; exact ⟨hT, rfl, rfl⟩

theorem scaleUp_tot {A : Ar} {v : ℝ} {k : Nat} : ∀ (m : Nat) (h h' : L), Tot h k → scaleUp A v m h = .ok h' → Tot h' k ∧ h'.count = h.count ∧ h'.n = h.n
  | 0, h, h', hT, e => by
    rw [scaleUp] at e
    split at e
    · cases e
    · cases e; exact ⟨hT, rfl, rfl⟩
  | m + 1, h, h', hT, e => by
    rw [scaleUp] at e
    split at e
    · obtain ⟨half, he⟩ := hT.even
      obtain ⟨b, e1, l1, s1⟩ := halveUp_sum (hT.len.trans he)
      rw [he, e1, Res.bind_ok] at e
      obtain ⟨a1, a2, a3⟩ := scaleUp_tot (A := A) (v := v) (k := k) m _ h' (by exact ⟨by show 0 < 2 * half; rw [← he]; exact hT.pos, ⟨half, rfl⟩, l1, s1.trans hT.sum⟩) e
      exact ⟨a1, a2, a3.trans he.symm⟩
    · cases e; exact ⟨hT, rfl, rfl⟩

theorem sum_set {b : List Nat} {i x : Nat} (h : b[i]? = some x) (y : Nat) : (b.set i y).sum + x = b.sum + y := by
  induction b generalizing i with
  | nil => cases h
  | cons a b ih =>
    cases i with
    | zero => rw [List.getElem?_cons_zero, Option.some.injEq] at h; subst h; simp; omega
    | succ i =>
      have := ih (i := i) h
      simp only [List.set_cons_succ, List.sum_cons]
      omega

theorem sampleBin_lt {A : Ar} {h : L} (hn : 0 < h.n) {v : ℝ} {i : Nat} (e : sampleBin A h v = .ok i) : i < h.n := by
  unfold sampleBin at e
  split at e
  · cases e; exact hn
  · rw [Res.bind_eq_ok] at e
    obtain ⟨b, -, e⟩ := e
    split at e <;> cases e <;> omega

theorem bump_tot {A : Ar} {h h' : L} {k i : Nat} (hT : Tot h k) {v : ℝ} (e : bump A h v = .ok (i, h')) : Tot h' (k + 1) ∧ h'.count = h.count ∧ h'.n = h.n ∧ i < h.n := by
  unfold bump at e
  simp only [Res.bind_eq_ok] at e
  obtain ⟨j, e1, x, e2, b, e3, e4⟩ := e
  cases e4
  have hi := sampleBin_lt hT.pos e1
  have hx : h.bins[i]? = some x := by
    unfold PQ.rd at e2
    split at e2
    · rename_i v hv; cases e2; exact hv
    · cases e2
  rw [PQ.wr_eq _ _ _ (by rw [hT.len]; exact hi)] at e3
  cases e3
  have := sum_set hx (x + 1)
  have hs := hT.sum
  exact ⟨⟨hT.pos, hT.even, by simpa using hT.len, by show (h.bins.set i (x + 1)).sum = _; omega⟩, rfl, rfl, hi⟩

theorem add_tot {A : Ar} {m : Nat} {h h' : L} {k : Nat} (hT : Tot h k) {v : ℝ} (e : add A m h v = .ok h') : Tot h' (k + 1) ∧ h'.count = h.count + 1 ∧ h'.n = h.n := by
  unfold add at e
  simp only [Res.bind_eq_ok] at e
  obtain ⟨-, -, h1, e1, ⟨i, h2⟩, e2, e3⟩ := e
  cases e3
  have hT' : Tot h1 k ∧ h1.count = h.count + 1 ∧ h1.n = h.n := by
    unfold addScale at e1
    split at e1
    · rw [Res.bind_eq_ok] at e1
      obtain ⟨h3, e3, e4⟩ := e1
      obtain ⟨a1, a2, a3⟩ := scaleDown_tot (k := k) m _ h3 (by exact ⟨hT.pos, hT.even, hT.len, hT.sum⟩) e3
      obtain ⟨b1, b2, b3⟩ := scaleUp_tot m _ h1 a1 e4
      exact ⟨b1, b2.trans a2, b3.trans a3⟩
    · cases e1
      exact ⟨⟨hT.pos, hT.even, hT.len, hT.sum⟩, rfl, rfl⟩
  obtain ⟨c1, c2, c3, -⟩ := bump_tot hT'.1 e2
  exact ⟨c1, c2.trans hT'.2.1, c3.trans hT'.2.2⟩

theorem reset_tot {h : L} {k : Nat} (hT : Tot h k) : Tot (reset h) 0 :=
  ⟨hT.pos, hT.even, by show (List.replicate h.n 0).length = h.n; simp, by show (List.replicate h.n 0).sum = 0; simp⟩

theorem new_tot {A : Ar} {b : Nat} (hb' : b < 2 ^ 32 - 1) {small high : ℝ} {scal : Bool} {h0 : L} (e : new A b small high scal = .ok h0) :
    Tot h0 0 ∧ h0.count = 0 ∧ h0.n = 2 * ((b + 1) / 2) := by
  unfold new at e
  simp only [Res.bind_eq_ok] at e
  obtain ⟨_, e1, _, _, _, _, e⟩ := e
  have hb : 0 < b := by
    by_contra h
    rw [decide_eq_false h] at e1
    cases e1
  split at e
  · cases e
  · cases e
    have hm : 2 * ((b + 1) / 2) % 2 ^ 32 = 2 * ((b + 1) / 2) := Nat.mod_eq_of_lt (by omega)
    refine ⟨⟨?_, ⟨(b + 1) / 2, ?_⟩, ?_, ?_⟩, rfl, ?_⟩
    · show 0 < 2 * ((b + 1) / 2) % 2 ^ 32; omega
    · show 2 * ((b + 1) / 2) % 2 ^ 32 = _; exact hm
    · show (List.replicate (2 * ((b + 1) / 2) % 2 ^ 32) 0).length = 2 * ((b + 1) / 2) % 2 ^ 32
      rw [List.length_replicate]
    · show (List.replicate (2 * ((b + 1) / 2) % 2 ^ 32) 0).sum = 0
      rw [List.sum_replicate]; rfl
    · exact hm

theorem run_tot {A : Ar} {m : Nat} {h0 : L} (hT : Tot h0 0) (hc : h0.count = 0) : ∀ (ops : List Op) (h : L), run A m h0 ops = .ok h →
    Tot h (vals ops).length ∧ h.count = (vals ops).length ∧ h.n = h0.n := by
  intro ops
  induction ops using List.reverseRecOn with
  | nil => intro h e; cases e; exact ⟨hT, hc, rfl⟩
  | append_singleton ops o ih =>
    intro h e
    rw [run_snoc, Res.bind_eq_ok] at e
    obtain ⟨h1, e1, e2⟩ := e
    obtain ⟨a1, a2, a3⟩ := ih h1 e1
    rw [vals_snoc]
    cases o with
    | add v =>
      obtain ⟨b1, b2, b3⟩ := add_tot a1 e2
      simp only [List.length_append, List.length_cons, List.length_nil, Nat.zero_add]
      exact ⟨b1, by rw [b2, a2], b3.trans a3⟩
    | add2 i d =>
      change add2 A m h1 i d = _ at e2
      unfold add2 at e2
      rw [Res.bind_eq_ok] at e2
      obtain ⟨-, -, e2⟩ := e2
      obtain ⟨b1, b2, b3⟩ := add_tot a1 e2
      simp only [List.length_append, List.length_cons, List.length_nil, Nat.zero_add]
      exact ⟨b1, by rw [b2, a2], b3.trans a3⟩
    | reset =>
      cases e2
      exact ⟨reset_tot a1, rfl, a3⟩

/-! ## Percentiles -/

theorem percLoop_ok (A : Ar) (T : ℝ) (bins : List Nat) : ∀ (k bin : Nat), bins.length = bin + 1 + k → T ≤ A.r ((bins.take bins.length).sum : Nat) →
    ∃ b, percLoop A T (bins.drop (bin + 1)) (bins.take bin).sum (bins.take (bin + 1)).sum bin = .ok ((bins.take b).sum, (bins.take (b + 1)).sum, b) ∧
      bin ≤ b ∧ b < bins.length ∧ T ≤ A.r ((bins.take (b + 1)).sum : Nat) ∧ ∀ i, bin ≤ i → i < b → ¬T ≤ A.r ((bins.take (i + 1)).sum : Nat)
  | k, bin, hl, hg => by
    by_cases hc : ¬T ≤ A.r ((bins.take (bin + 1)).sum : Nat)
    · cases k with
      | zero => rw [hl] at hg; exact absurd hg hc
      | succ k =>
        have hlt : bin + 1 < bins.length := by omega
        obtain ⟨b, h1, h2, h3, h4, h5⟩ := percLoop_ok A T bins k (bin + 1) (by omega) hg
        refine ⟨b, ?_, by omega, h3, h4, fun i hi hib => ?_⟩
        · rw [percLoop.eq_def]; dsimp only; rw [if_pos hc, List.drop_eq_getElem_cons hlt]
          rw [take_succ_sum (i := bin + 1) (List.getElem?_eq_getElem hlt)] at h1
          exact h1
        · rcases Nat.lt_or_ge bin i with h | h
          · exact h5 i h hib
          · have : i = bin := by omega
            rw [this]; exact hc
    · refine ⟨bin, ?_, le_refl _, by omega, not_not.1 hc, fun i hi hib => by omega⟩
      rw [percLoop.eq_def]; dsimp only; rw [if_neg hc]

/-- What `percentile` computes, in any arithmetic in which the target does not exceed the number of values. -/
theorem perc_any (A : Ar) {h : L} {p : ℝ} (h0 : 0 ≤ p) (h1 : p ≤ 1) (hl : 0 < h.bins.length) (hT : A.r (p * A.r h.count) ≤ A.r (h.bins.sum : Nat)) :
    ∃ b, b < h.bins.length ∧ A.r (p * A.r h.count) ≤ A.r ((h.bins.take (b + 1)).sum : Nat) ∧
      (∀ i, i < b → A.r ((h.bins.take (i + 1)).sum : Nat) < A.r (p * A.r h.count)) ∧
      ((h.bins.take (b + 1)).sum = (h.bins.take b).sum → b = 0) ∧
      percentile A h p = .ok (if (h.bins.take (b + 1)).sum = (h.bins.take b).sum then 0
        else binOffset A h (A.r (A.r b + A.r (A.r (A.r (p * A.r h.count) - A.r (h.bins.take b).sum) / A.r (((h.bins.take (b + 1)).sum - (h.bins.take b).sum : Nat) : ℝ))))) := by
  obtain ⟨b, e, -, g1, g2, g3⟩ := percLoop_ok A (A.r (p * A.r h.count)) h.bins (h.bins.length - 1) 0 (by omega) (by
    rw [List.take_length]; exact hT)
  have hz : (h.bins.take (b + 1)).sum = (h.bins.take b).sum → b = 0 := by
    intro he
    cases b with
    | zero => rfl
    | succ b =>
      have := g3 b (by omega) (by omega)
      rw [← he] at this
      exact absurd g2 this
  refine ⟨b, g1, g2, fun i hi => not_le.1 (g3 i (by omega) hi), hz, ?_⟩
  unfold percentile
  rw [decide_eq_true (show 0 ≤ p ∧ p ≤ 1 from ⟨h0, h1⟩), Res.require_true, Res.bind_ok]
  simp only []
  rw [PQ.rd_eq 0 _ _ hl, Res.bind_ok]
  have e0 : (h.bins.take (0 + 1)).sum = PQ.g 0 h.bins 0 := by
    rw [take_succ_sum (x := PQ.g 0 h.bins 0)]
    · simp
    · unfold PQ.g; rw [List.getD_eq_getElem?_getD, List.getElem?_eq_getElem hl]; rfl
  rw [← e0]
  have e' : percLoop A (A.r (p * A.r h.count)) (h.bins.drop 1) 0 (h.bins.take (0 + 1)).sum 0 = _ := e
  rw [e', Res.bind_ok]
  by_cases hc : (h.bins.take (b + 1)).sum = (h.bins.take b).sum
  · rw [if_pos hc, if_pos hc]
    rw [show decide (b = 0) = true from decide_eq_true (hz hc)]
    rfl
  · rw [if_neg hc, if_neg hc]
    rfl

/-- In exact arithmetic: the bin, and the numbers of values below and up to it. -/
structure At (h : L) (vs : List ℝ) (T : ℝ) (bin c d : Nat) (x : ℝ) : Prop where
  lt : bin < h.n
  hc : c = vs.countP fun v => decide (key h.scaling h.small h.n v < bin)
  hd : d = vs.countP fun v => decide (key h.scaling h.small h.n v < bin + 1)
  low : (c : ℝ) < T
  high : T ≤ d
  x : x = h.small * Real.exp ((bin + (T - c) / (d - c)) / h.scaling)

theorem Core.take {h : L} {vs : List ℝ} (hC : Core h vs) {b : Nat} (hb : b ≤ h.n) : (h.bins.take b).sum = vs.countP fun v => decide (key h.scaling h.small h.n v < b) := by
  rw [hC.bins, cum_tally _ _ _ _ hb]

theorem Core.total {h : L} {vs : List ℝ} (hC : Core h vs) : h.bins.sum = vs.length := by
  rw [hC.bins, sum_tally]
  exact fun v _ => key_lt hC.n v

theorem perc_at {h : L} {vs : List ℝ} (hI : Inv h vs) {p : ℝ} (h0 : 0 < p) (h1 : p ≤ 1) (hv : vs ≠ []) :
    ∃ x bin c d, percentile exact h p = .ok x ∧ At h vs (p * vs.length) bin c d x := by
  have hl : h.bins.length = h.n := by rw [hI.bins]; simp
  have hN : (0 : ℝ) < vs.length := by exact_mod_cast List.length_pos_of_ne_nil hv
  obtain ⟨b, g1, g2, g3, g4, g5⟩ := perc_any exact h0.le h1 (by rw [hl]; exact hI.n) (by
    show p * (h.count : ℝ) ≤ (h.bins.sum : Nat)
    rw [hI.count, hI.toCore.total]
    nlinarith)
  rw [hl] at g1
  rw [hI.toCore.take (by omega), hI.toCore.take (by omega)] at g5
  rw [hI.toCore.take (by omega)] at g2
  have g2' : p * (h.count : ℝ) ≤ (vs.countP (fun v => decide (key h.scaling h.small h.n v < b + 1)) : Nat) := g2
  rw [hI.count] at g2'
  have hlow : ((vs.countP (fun v => decide (key h.scaling h.small h.n v < b)) : Nat) : ℝ) < p * vs.length := by
    cases b with
    | zero =>
      simp
      positivity
    | succ b =>
      have := g3 b (by omega)
      rw [hI.toCore.take (by omega)] at this
      have this' : ((vs.countP (fun v => decide (key h.scaling h.small h.n v < b + 1)) : Nat) : ℝ) < p * (h.count : ℝ) := this
      rwa [hI.count] at this'
  have hcd : vs.countP (fun v => decide (key h.scaling h.small h.n v < b)) < vs.countP (fun v => decide (key h.scaling h.small h.n v < b + 1)) := by
    have := lt_of_lt_of_le hlow g2'
    exact_mod_cast this
  rw [if_neg (by omega)] at g5
  refine ⟨_, b, _, _, g5, g1, rfl, rfl, hlow, g2', ?_⟩
  show h.small * Real.exp (((b : ℝ) + (p * (h.count : ℝ) - ((vs.countP (fun v => decide (key h.scaling h.small h.n v < b)) : Nat) : ℝ)) / ((_ - _ : Nat) : ℝ)) / h.scaling) = _
  rw [hI.count, Nat.cast_sub hcd.le]

open Classical in
/-- Increasing order. -/
theorem sorted_prefix {p : ℝ → Bool} (hp : ∀ a b, a ≤ b → p b = true → p a = true) : ∀ {s : List ℝ}, s.Pairwise (· ≤ ·) → ∀ {j : Nat} {v : ℝ},
    s[j]? = some v → (p v = true ↔ j < s.countP p)
  | [], _, _, _, h => by cases h
  | a :: s, hs, j, v, h => by
    obtain ⟨h1, h2⟩ := List.pairwise_cons.1 hs
    cases j with
    | zero =>
      rw [List.getElem?_cons_zero, Option.some.injEq] at h
      subst h
      rw [List.countP_cons]
      by_cases hpa : p a = true
      · simp [hpa]
      · have : s.countP p = 0 := by
          rw [List.countP_eq_zero]
          intro x hx hpx
          exact hpa (hp _ _ (h1 x hx) hpx)
        simp [hpa, this]
    | succ j =>
      rw [List.getElem?_cons_succ] at h
      have ih := sorted_prefix hp h2 h
      rw [List.countP_cons]
      by_cases hpa : p a = true
      · rw [ih]; simp [hpa]
      · have : s.countP p = 0 := by
          rw [List.countP_eq_zero]
          intro x hx hpx
          exact hpa (hp _ _ (h1 x hx) hpx)
        rw [ih]
        simp [hpa, this]

theorem key_mono {c s : ℝ} (hc : 0 < c) (hs : 0 < s) (n : Nat) {a b : ℝ} (h : a ≤ b) : key c s n a ≤ key c s n b := by
  unfold key
  split
  · omega
  · rename_i ha
    have ha := not_le.1 ha
    rw [if_neg (by linarith)]
    have : ⌊c * Real.log (a / s)⌋ ≤ ⌊c * Real.log (b / s)⌋ := Int.floor_mono (mul_le_mul_of_nonneg_left
      (Real.log_le_log (div_pos (by linarith) hs) (div_le_div_of_nonneg_right h hs.le)) hc.le)
    omega

/-! ## Modes -/

/-- The position is of a largest element, the last of these. -/
theorem modeBin_ok (l : List Nat) : ∀ (k i m pos : Nat), l.length = i + k → pos < i → l[pos]? = some m → (∀ j x, j < i → l[j]? = some x → x ≤ m ∧ (pos < j → x < m)) →
    ∃ y, l[modeBin (l.drop i) i m pos]? = some y ∧ ∀ j x, l[j]? = some x → x ≤ y ∧ (modeBin (l.drop i) i m pos < j → x < y)
  | 0, i, m, pos, hl, hp, hm, hb => by
    rw [List.drop_eq_nil_of_le (by omega)]
    refine ⟨m, hm, fun j x hx => hb j x ?_ hx⟩
    have := (List.getElem?_eq_some_iff.1 hx).1
    omega
  | k + 1, i, m, pos, hl, hp, hm, hb => by
    have hi : i < l.length := by omega
    rw [List.drop_eq_getElem_cons hi, modeBin]
    split
    · rename_i hle
      refine modeBin_ok l k (i + 1) _ i (by omega) (by omega) (List.getElem?_eq_getElem hi) fun j x hj hx => ?_
      rcases Nat.lt_or_ge j i with h | h
      · exact ⟨le_trans (hb j x h hx).1 hle, fun h' => by omega⟩
      · have : j = i := by omega
        subst this
        rw [List.getElem?_eq_getElem hi, Option.some.injEq] at hx
        exact ⟨by omega, fun h' => by omega⟩
    · rename_i hgt
      refine modeBin_ok l k (i + 1) m pos (by omega) (by omega) hm fun j x hj hx => ?_
      rcases Nat.lt_or_ge j i with h | h
      · exact hb j x h hx
      · have : j = i := by omega
        subst this
        rw [List.getElem?_eq_getElem hi, Option.some.injEq] at hx
        exact ⟨by omega, fun _ => by omega⟩

theorem modeBin_top {l : List Nat} (hl : 0 < l.length) : ∃ y, l[modeBin (l.drop 1) 1 (PQ.g 0 l 0) 0]? = some y ∧
    ∀ j x, l[j]? = some x → x ≤ y ∧ (modeBin (l.drop 1) 1 (PQ.g 0 l 0) 0 < j → x < y) := by
  have e : l[0]? = some (PQ.g 0 l 0) := by
    unfold PQ.g
    rw [List.getD_eq_getElem?_getD, List.getElem?_eq_getElem hl]; rfl
  refine modeBin_ok l (l.length - 1) 1 _ 0 (by omega) (by omega) e fun j x hj hx => ?_
  have : j = 0 := by omega
  subst this
  rw [e, Option.some.injEq] at hx
  exact ⟨by omega, fun h => by omega⟩

/-! ## Sums -/

/-- What holds of a histogram that sums up. -/
structure InvA (a : LA) (ps : List (ℝ × ℝ)) : Prop where
  core : Core a.h (ps.map Prod.fst)
  count : a.h.count = ps.length
  val : a.val = tally a.h.n (ps.map fun p => (key a.h.scaling a.h.small a.h.n p.1, p.2))

theorem addA_ok {a : LA} {ps : List (ℝ × ℝ)} (hI : InvA a ps) (hn : a.h.n < 2 ^ 32) {i d : ℝ} (hi : Near a.h.small a.h.high a.h.n i ∨ i < a.h.high) :
    ∃ a', addA exact a i d = .ok a' ∧ InvA a' (ps ++ [(i, d)]) ∧ a'.h.n = a.h.n ∧ a'.h.small = a.h.small ∧ a'.h.high = a.h.high := by
  have hC : Core { a.h with count := a.h.count + 1 } (ps.map Prod.fst) :=
    ⟨⟨hI.core.n, hI.core.even, hI.core.sc, hI.core.sm, hI.core.hi, hI.core.span⟩, hI.core.bins⟩
  obtain ⟨b, e, hC'⟩ := bump_ok hC hn hi
  have hk := key_lt (c := a.h.scaling) (s := a.h.small) hI.core.n i
  have hl : a.val.length = a.h.n := by rw [hI.val]; simp
  refine ⟨⟨{ a.h with count := a.h.count + 1, bins := b }, a.val.set (key a.h.scaling a.h.small a.h.n i) (PQ.g 0 a.val (key a.h.scaling a.h.small a.h.n i) + d)⟩, ?_, ⟨?_, ?_, ?_⟩, rfl, rfl, rfl⟩
  · unfold addA
    rw [e, Res.bind_ok]
    show (do
      let y ← PQ.rd a.val (key a.h.scaling a.h.small a.h.n i)
      let c ← PQ.wr a.val (key a.h.scaling a.h.small a.h.n i) (y + d)
      pure (⟨{ a.h with count := a.h.count + 1, bins := b }, c⟩ : LA)) = _
    rw [PQ.rd_eq 0 _ _ (by omega), Res.bind_ok, PQ.wr_eq _ _ _ (by omega), Res.bind_ok]
    rfl
  · rw [List.map_append]; exact hC'
  · show a.h.count + 1 = _
    simp [hI.count]
  · show a.val.set _ _ = _
    rw [set_tally hI.val hk, List.map_append]
    rfl

theorem zero_all {α : Type} (z : α) : ∀ (m i : Nat) (b : List α), i + m = b.length → zeroUp z i m b = .ok (b.take i ++ List.replicate m z)
  | 0, i, b, h => by rw [zeroUp, List.take_of_length_le (by omega)]; simp
  | m + 1, i, b, h => by
    rw [zeroUp, PQ.wr_eq _ _ _ (by omega), Res.bind_ok, zero_all z m (i + 1) _ (by simp; omega), List.take_add_one, List.getElem?_set_self (by omega), List.take_set_of_le (by omega)]
    simp [List.replicate_succ]

theorem resetA_ok {a : LA} (hS : Shape a.h) (hl : a.val.length = a.h.n) : ∃ a', resetA a = .ok a' ∧ InvA a' [] ∧ a'.h.n = a.h.n ∧ a'.h.small = a.h.small ∧ a'.h.high = a.h.high := by
  refine ⟨⟨reset a.h, List.replicate a.h.n 0⟩, ?_, ⟨(reset_ok hS).toCore, rfl, ?_⟩, rfl, rfl, rfl⟩
  · unfold resetA
    rw [zero_all _ _ _ _ (by omega), Res.bind_ok]
    simp
  · show List.replicate a.h.n (0 : ℝ) = tally a.h.n _
    rw [List.map_nil, tally_nil]

theorem newA_ok {b : Nat} (hb : 0 < b) (hb' : b < 2 ^ 32 - 1) {small high : ℝ} (hs : 0 < small) (hh : small < high) :
    ∃ a0, newA exact b small high = .ok a0 ∧ InvA a0 [] ∧ a0.h.n = 2 * ((b + 1) / 2) ∧ a0.h.small = small ∧ a0.h.high = high := by
  obtain ⟨h0, e, hI, n0, s0, g0, -⟩ := new_ok hb hb' hs hh false
  obtain ⟨a', e', hI', n', s', g'⟩ := resetA_ok (a := ⟨h0, List.replicate h0.n 0⟩) hI.toShape (by simp)
  refine ⟨a', ?_, hI', n'.trans n0, s'.trans s0, g'.trans g0⟩
  unfold newA
  rw [e, Res.bind_ok, e']

theorem pairs_snoc (ops : List OpA) (o : OpA) : pairs (ops ++ [o]) = match o with | .add i d => pairs ops ++ [(i, d)] | .reset => [] := by
  unfold pairs
  rw [List.foldl_append]
  cases o <;> rfl

theorem runA_snoc (A : Ar) (a : LA) (ops : List OpA) (o : OpA) : runA A a (ops ++ [o]) = (runA A a ops >>= fun a => stepA A a o) := by
  induction ops generalizing a with
  | nil =>
    show (stepA A a o >>= fun a => Res.ok a) = stepA A a o
    cases stepA A a o <;> rfl
  | cons x xs ih =>
    show (stepA A a x >>= fun a => runA A a (xs ++ [o])) = _
    show _ = ((stepA A a x >>= fun a => runA A a xs) >>= fun a => stepA A a o)
    cases stepA A a x with
    | ok a' => exact ih a'
    | abort => rfl
    | ub => rfl

theorem runA_ok {a0 : LA} (hI : InvA a0 []) (hn : a0.h.n < 2 ^ 32) : ∀ ops : List OpA, (∀ i d, OpA.add i d ∈ ops → Near a0.h.small a0.h.high a0.h.n i ∨ i < a0.h.high) →
    ∃ a, runA exact a0 ops = .ok a ∧ InvA a (pairs ops) ∧ a.h.n = a0.h.n ∧ a.h.small = a0.h.small ∧ a.h.high = a0.h.high := by
  intro ops
  induction ops using List.reverseRecOn with
  | nil => exact fun _ => ⟨a0, rfl, hI, rfl, rfl, rfl⟩
  | append_singleton ops o ih =>
    intro hnear
    obtain ⟨a, e, hI', n', s', g'⟩ := ih (fun i d ho => hnear i d (List.mem_append_left _ ho))
    rw [runA_snoc, e, Res.bind_ok, pairs_snoc]
    cases o with
    | add i d =>
      obtain ⟨a', e', hI'', n'', s'', g''⟩ := addA_ok (d := d) hI' (by rw [n']; exact hn) (by rw [s', g', n']; exact hnear i d (by simp))
      exact ⟨a', e', hI'', n''.trans n', s''.trans s', g''.trans g'⟩
    | reset =>
      obtain ⟨a', e', hI'', n'', s'', g''⟩ := resetA_ok hI'.core.toShape (by rw [hI'.val]; simp)
      exact ⟨a', e', hI'', n''.trans n', s''.trans s', g''.trans g'⟩

/-- The sum of the data with a key. -/
theorem at_data (f : ℝ → Nat) (i : Nat) : ∀ ps : List (ℝ × ℝ), at' i (ps.map fun p => (f p.1, p.2)) = ((ps.filter fun p => decide (f p.1 = i)).map Prod.snd).sum
  | [] => rfl
  | p :: ps => by
    rw [List.map_cons, at_cons, at_data f i ps, List.filter_cons]
    by_cases h : f p.1 = i
    · simp [h]
    · simp [h]

end Verif.LogHisto
