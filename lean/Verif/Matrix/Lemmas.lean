import Verif.Matrix.Spec
import Mathlib.Algebra.BigOperators.Ring.Finset
import Mathlib.Algebra.BigOperators.Field
import Mathlib.Algebra.Order.Ring.Abs
import Mathlib.Tactic.Linarith
import Mathlib.Tactic.Ring
import Mathlib.Tactic.FieldSimp

/-! # Lemmas about Gaussian elimination -/

namespace Verif.Matrix

open Verif

theorem dabs_eq (a : Rat) : dabs a = |a| := by
  unfold dabs
  split
  · next h => rw [abs_of_neg h]
  · next h => rw [abs_of_nonneg (not_lt.1 h)]

theorem maxRow_spec (m : Mat) (col e : Nat) (he : e < m.rows) :
    e ≤ maxRow m col e ∧ maxRow m col e < m.rows ∧ ∀ i, e ≤ i → i < m.rows → |m.at_ i col| ≤ |m.at_ (maxRow m col e) col| := by
  have h : ∀ (n : Nat), e + 1 + n ≤ m.rows →
      e ≤ (List.range' (e + 1) n).foldl (fun best i => if dabs (m.at_ best col) < dabs (m.at_ i col) then i else best) e ∧
      (List.range' (e + 1) n).foldl (fun best i => if dabs (m.at_ best col) < dabs (m.at_ i col) then i else best) e < e + 1 + n ∧
      ∀ i, e ≤ i → i < e + 1 + n → |m.at_ i col| ≤ |m.at_ ((List.range' (e + 1) n).foldl (fun best i => if dabs (m.at_ best col) < dabs (m.at_ i col) then i else best) e) col| := by
    intro n
    induction n with
    | zero =>
      intro _
      refine ⟨Nat.le_refl _, Nat.lt_succ_self _, fun i h1 h2 => ?_⟩
      have : i = e := by omega
      rw [this]
      exact le_refl _
    | succ n ih =>
      intro hn
      obtain ⟨i1, i2, i3⟩ := ih (by omega)
      rw [List.range'_1_concat, List.foldl_append, List.foldl_cons, List.foldl_nil]
      generalize (List.range' (e + 1) n).foldl (fun best i => if dabs (m.at_ best col) < dabs (m.at_ i col) then i else best) e = b at *
      simp only [dabs_eq]
      by_cases hc : |m.at_ b col| < |m.at_ (e + 1 + n) col|
      · rw [if_pos hc]
        refine ⟨by omega, by omega, fun i h1 h2 => ?_⟩
        rcases Nat.lt_or_ge i (e + 1 + n) with hlt | hge
        · exact le_trans (i3 i h1 hlt) hc.le
        · have : i = e + 1 + n := by omega
          rw [this]
      · rw [if_neg hc]
        refine ⟨by omega, by omega, fun i h1 h2 => ?_⟩
        rcases Nat.lt_or_ge i (e + 1 + n) with hlt | hge
        · exact i3 i h1 hlt
        · have : i = e + 1 + n := by omega
          rw [this]
          exact not_lt.1 hc
  have h' := h (m.rows - (e + 1)) (by omega)
  have hr : e + 1 + (m.rows - (e + 1)) = m.rows := by omega
  rw [hr] at h'
  exact h'

/-- All rows in the list are changed once. -/
theorem clearRows_at (r : Rat → Rat) (e col : Nat) : ∀ (is : List Nat) (m : Mat), is.Nodup → e ∉ is →
    (clearRows r m e col is).rows = m.rows ∧ (clearRows r m e col is).cols = m.cols ∧
    ∀ i j, (clearRows r m e col is).at_ i j = if i ∈ is then r (m.at_ i j + r (-m.at_ i col * m.at_ e j)) else m.at_ i j
  | [], m, _, _ => ⟨rfl, rfl, fun i j => by simp [clearRows]⟩
  | k :: is, m, h1, h2 => by
    obtain ⟨hk, hn⟩ := List.nodup_cons.1 h1
    have hek : e ≠ k := fun h => h2 (by simp [h])
    have hei : e ∉ is := fun h => h2 (by simp [h])
    obtain ⟨i1, i2, i3⟩ := clearRows_at r e col is (accum r m k e (-m.at_ k col)) hn hei
    have hc : clearRows r m e col (k :: is) = clearRows r (accum r m k e (-m.at_ k col)) e col is := rfl
    rw [hc]
    refine ⟨i1, i2, fun i j => ?_⟩
    rw [i3]
    have ha : ∀ i j, i ≠ k → (accum r m k e (-m.at_ k col)).at_ i j = m.at_ i j := fun i j hik => if_neg hik
    have hak : ∀ j, (accum r m k e (-m.at_ k col)).at_ k j = r (m.at_ k j + r (-m.at_ k col * m.at_ e j)) := fun j => if_pos rfl
    by_cases hik : i = k
    · subst hik
      rw [if_neg hk, if_pos (by simp), hak]
    · by_cases hi : i ∈ is
      · rw [if_pos hi, if_pos (by simp [hi]), ha i j hik, ha i col hik, ha e j hek]
      · rw [if_neg hi, if_neg (by simp [hik, hi]), ha i j hik]

theorem solves_swap (m : Mat) (a b : Nat) (ha : a < m.rows) (hb : b < m.rows) (x : Nat → Rat) : Solves (swapRows m a b) x ↔ Solves m x := by
  have hd : ∀ i, dot (swapRows m a b) x i = if i = a then dot m x b else if i = b then dot m x a else dot m x i := by
    intro i
    unfold dot swapRows
    simp only []
    by_cases h1 : i = a
    · simp only [if_pos h1]
    · by_cases h2 : i = b
      · simp only [if_neg h1, if_pos h2]
      · simp only [if_neg h1, if_neg h2]
  constructor
  · intro h i hi
    by_cases h1 : i = a
    · have := h b hb
      rw [hd] at this
      by_cases hba : b = a
      · rw [if_pos hba, hba] at this; rw [h1]; exact this
      · rw [if_neg hba, if_pos rfl] at this; rw [h1]; exact this
    · by_cases h2 : i = b
      · have := h a ha
        rw [hd, if_pos rfl] at this
        rw [h2]; exact this
      · have := h i hi
        rw [hd, if_neg h1, if_neg h2] at this
        exact this
  · intro h i hi
    rw [hd]
    by_cases h1 : i = a
    · rw [if_pos h1]; exact h b hb
    · rw [if_neg h1]
      by_cases h2 : i = b
      · rw [if_pos h2]; exact h a ha
      · rw [if_neg h2]; exact h i hi

theorem solves_div (m : Mat) (a : Nat) {v : Rat} (hv : v ≠ 0) (x : Nat → Rat) : Solves (divRow id m a v) x ↔ Solves m x := by
  have hd : ∀ i, dot (divRow id m a v) x i = if i = a then dot m x i / v else dot m x i := by
    intro i
    unfold dot divRow
    simp only []
    by_cases h1 : i = a
    · simp only [if_pos h1, id]
      rw [Finset.sum_div]
      exact Finset.sum_congr rfl fun j _ => by ring
    · simp only [if_neg h1]
  constructor
  · intro h i hi
    have := h i hi
    rw [hd] at this
    by_cases h1 : i = a
    · rw [if_pos h1] at this
      rcases div_eq_zero_iff.1 this with h | h
      · exact h
      · exact absurd h hv
    · rw [if_neg h1] at this; exact this
  · intro h i hi
    rw [hd, h i hi, zero_div]
    exact ite_self _

theorem solves_clear (m : Mat) (e col : Nat) (he : e < m.rows) (is : List Nat) (hn : is.Nodup) (hi : e ∉ is) (x : Nat → Rat) :
    Solves (clearRows id m e col is) x ↔ Solves m x := by
  obtain ⟨h1, h2, h3⟩ := clearRows_at id e col is m hn hi
  have hd : ∀ i, dot (clearRows id m e col is) x i = if i ∈ is then dot m x i + -m.at_ i col * dot m x e else dot m x i := by
    intro i
    unfold dot
    rw [h2]
    by_cases hm : i ∈ is
    · rw [if_pos hm, Finset.mul_sum, ← Finset.sum_add_distrib]
      refine Finset.sum_congr rfl fun j _ => ?_
      rw [h3, if_pos hm]
      simp only [id]
      ring
    · rw [if_neg hm]
      refine Finset.sum_congr rfl fun j _ => ?_
      rw [h3, if_neg hm]
  unfold Solves
  rw [h1]
  constructor
  · intro h
    have h0 := h e he
    rw [hd, if_neg hi] at h0
    intro i hi'
    have := h i hi'
    rw [hd, h0, mul_zero, add_zero, ite_self] at this
    exact this
  · intro h i hi'
    rw [hd, h i hi', h e he, mul_zero, add_zero]
    exact ite_self _

/-! ## A step -/

theorem range'_facts (e n : Nat) : (List.range' (e + 1) (n - (e + 1))).Nodup ∧ e ∉ List.range' (e + 1) (n - (e + 1)) ∧ ∀ i, i ∈ List.range' (e + 1) (n - (e + 1)) ↔ e < i ∧ i < n := by
  refine ⟨List.nodup_range', ?_, fun i => ?_⟩
  · rw [List.mem_range'_1]; omega
  · rw [List.mem_range'_1]; omega

/-- The test is true of zero. -/
def Sound (z : Rat → Bool) : Prop := z 0 = true

theorem step_ok (r : Rat → Rat) {z : Rat → Bool} (hz : Sound z) (m : Mat) (col e : Nat) : ∃ m' e', step r z m col e = .ok (m', e') ∧ m'.rows = m.rows ∧ m'.cols = m.cols ∧
    (e' = e ∨ e' = e + 1) := by
  unfold step
  simp only []
  cases hp : z ((swapRows m (maxRow m col e) e).at_ e col) with
  | true => exact ⟨_, _, rfl, rfl, rfl, .inl rfl⟩
  | false =>
    have h0 : (swapRows m (maxRow m col e) e).at_ e col ≠ 0 := fun h => by rw [h, hz] at hp; cases hp
    rw [if_neg (by simp), decide_eq_true (by rw [dabs_eq]; exact abs_pos.2 h0)]
    obtain ⟨f1, f2, -⟩ := range'_facts e m.rows
    obtain ⟨h1, h2, -⟩ := clearRows_at r e col _ (divRow r (swapRows m (maxRow m col e) e) e ((swapRows m (maxRow m col e) e).at_ e col)) f1 f2
    exact ⟨_, _, rfl, h1, h2, .inr rfl⟩

theorem step_solves {z : Rat → Bool} (hz : Sound z) {m m' : Mat} {col e e' : Nat} (he : e < m.rows) (h : step id z m col e = .ok (m', e')) (x : Nat → Rat) :
    Solves m' x ↔ Solves m x := by
  obtain ⟨-, hm, -⟩ := maxRow_spec m col e he
  unfold step at h
  simp only [] at h
  rw [← solves_swap m (maxRow m col e) e hm he x]
  cases hp : z ((swapRows m (maxRow m col e) e).at_ e col) with
  | true =>
    rw [hp] at h
    cases h
    exact Iff.rfl
  | false =>
    have h0 : (swapRows m (maxRow m col e) e).at_ e col ≠ 0 := fun h => by rw [h, hz] at hp; cases hp
    rw [hp, if_neg (by simp), decide_eq_true (by rw [dabs_eq]; exact abs_pos.2 h0)] at h
    obtain ⟨f1, f2, -⟩ := range'_facts e m.rows
    injection h with h
    injection h with h h'
    subst h
    rw [solves_clear _ e col (by exact he) _ f1 f2, solves_div _ e h0]

/-! ## Triangles -/

/-- A rounding function as far as it is needed here. -/
structure Nice (r : Rat → Rat) : Prop where
  zero : r 0 = 0
  one : r 1 = 1
  idem : ∀ x, r (r x) = r x
  neg : ∀ x, r x = x → r (-x) = -x

theorem nice_id : Nice id := ⟨rfl, rfl, fun _ => rfl, fun _ _ => rfl⟩

theorem nice_rounding (R : Flt.Rounding) : Nice R.rnd := by
  refine ⟨?_, ?_, fun x => R.exact (R.isDouble x), fun x h => ?_⟩
  · have := R.exact (Flt.isDouble_int 0 (by norm_num)); simpa using this
  · have := R.exact (Flt.isDouble_int 1 (by norm_num)); simpa using this
  · have hd := R.isDouble x
    rw [h] at hd
    exact R.exact (Flt.isDouble_neg hd)

/-- All elements are doubles. -/
def Fixed (r : Rat → Rat) (m : Mat) : Prop := ∀ i j, i < m.rows → j < m.cols → r (m.at_ i j) = m.at_ i j

/-- The first `c` columns have ones on the diagonal and zeros below. -/
def Tri (m : Mat) (c : Nat) : Prop := ∀ i j, i < m.rows → j < c → (i = j → m.at_ i j = 1) ∧ (j < i → m.at_ i j = 0)

theorem swap_at (m : Mat) (a b i j : Nat) : (swapRows m a b).at_ i j = if i = a then m.at_ b j else if i = b then m.at_ a j else m.at_ i j := rfl

theorem tri_swap {m : Mat} {c b : Nat} (h : Tri m c) (hc : c < m.rows) (hb : c ≤ b) (hb' : b < m.rows) : Tri (swapRows m b c) c := by
  intro i j hi hj
  rw [swap_at]
  by_cases h1 : i = b
  · rw [if_pos h1]
    exact ⟨fun h => by omega, fun _ => (h c j hc hj).2 (by omega)⟩
  · rw [if_neg h1]
    by_cases h2 : i = c
    · rw [if_pos h2]
      exact ⟨fun h => by omega, fun _ => (h b j hb' hj).2 (by omega)⟩
    · rw [if_neg h2]
      exact h i j hi hj

theorem fixed_swap {r : Rat → Rat} {m : Mat} (h : Fixed r m) {a b : Nat} (ha : a < m.rows) (hb : b < m.rows) : Fixed r (swapRows m a b) := by
  intro i j hi hj
  rw [swap_at]
  by_cases h1 : i = a
  · rw [if_pos h1]; exact h b j hb hj
  · rw [if_neg h1]
    by_cases h2 : i = b
    · rw [if_pos h2]; exact h a j ha hj
    · rw [if_neg h2]; exact h i j hi hj

theorem step_fixed {r : Rat → Rat} (hr : Nice r) {z : Rat → Bool} (hz : Sound z) {m m' : Mat} {col e e' : Nat} (he : e < m.rows) (h : step r z m col e = .ok (m', e'))
    (hf : Fixed r m) : Fixed r m' := by
  obtain ⟨-, hm, -⟩ := maxRow_spec m col e he
  have hs := fixed_swap hf hm he
  unfold step at h
  simp only [] at h
  generalize hm1 : swapRows m (maxRow m col e) e = m1 at *
  have hrows : m1.rows = m.rows := by rw [← hm1]; rfl
  cases hp : z (m1.at_ e col) with
  | true => rw [hp] at h; cases h; exact hs
  | false =>
    have h0 : m1.at_ e col ≠ 0 := fun h => by rw [h, hz] at hp; cases hp
    rw [hp, if_neg (by simp), decide_eq_true (by rw [dabs_eq]; exact abs_pos.2 h0)] at h
    injection h with h
    injection h with h h'
    subst h
    obtain ⟨f1, f2, -⟩ := range'_facts e m.rows
    obtain ⟨h1, h2, h3⟩ := clearRows_at r e col _ (divRow r m1 e (m1.at_ e col)) f1 f2
    intro i j hi hj
    rw [h3]
    rw [h1] at hi
    rw [h2] at hj
    split
    · exact hr.idem _
    · show r (if i = e then r (m1.at_ i j / m1.at_ e col) else m1.at_ i j) = (if i = e then r (m1.at_ i j / m1.at_ e col) else m1.at_ i j)
      split
      · exact hr.idem _
      · exact hs i j hi hj

/-- A step that finds a pivot in the next column makes the triangle larger. -/
theorem step_tri {r : Rat → Rat} (hr : Nice r) {z : Rat → Bool} (hz : Sound z) {m m' : Mat} {c : Nat} (hc : c < m.rows) (hcc : c < m.cols) (h : step r z m c c = .ok (m', c + 1))
    (hf : Fixed r m) (ht : Tri m c) : Tri m' (c + 1) := by
  obtain ⟨hm0, hm, -⟩ := maxRow_spec m c c hc
  have hs := fixed_swap hf hm hc
  have hst := tri_swap ht hc hm0 hm
  unfold step at h
  simp only [] at h
  generalize hm1 : swapRows m (maxRow m c c) c = m1 at *
  have hrows : m1.rows = m.rows := by rw [← hm1]; rfl
  have hcols : m1.cols = m.cols := by rw [← hm1]; rfl
  cases hp : z (m1.at_ c c) with
  | true => rw [hp] at h; injection h with h; injection h with h h'; omega
  | false =>
    have h0 : m1.at_ c c ≠ 0 := fun h => by rw [h, hz] at hp; cases hp
    rw [hp, if_neg (by simp), decide_eq_true (by rw [dabs_eq]; exact abs_pos.2 h0)] at h
    injection h with h
    injection h with h h'
    subst h
    obtain ⟨f1, f2, f3⟩ := range'_facts c m.rows
    obtain ⟨h1, h2, h3⟩ := clearRows_at r c c _ (divRow r m1 c (m1.at_ c c)) f1 f2
    have hdo : ∀ i j, i ≠ c → (divRow r m1 c (m1.at_ c c)).at_ i j = m1.at_ i j := fun i j hi => if_neg hi
    have hdc : ∀ j, (divRow r m1 c (m1.at_ c c)).at_ c j = r (m1.at_ c j / m1.at_ c c) := fun j => if_pos rfl
    intro i j hi hj
    rw [h1] at hi
    have hi : i < m.rows := by rw [← hrows]; exact hi
    rw [h3]
    by_cases hmem : i ∈ List.range' (c + 1) (m.rows - (c + 1))
    · rw [if_pos hmem]
      have hci := ((f3 i).1 hmem).1
      refine ⟨fun h => by omega, fun hji => ?_⟩
      rw [hdo i j (by omega), hdo i c (by omega), hdc]
      rcases Nat.lt_or_ge j c with hjc | hjc
      · rw [(hst i j (by omega) hjc).2 hji, (hst c j (by omega) hjc).2 hjc, zero_div, hr.zero, mul_zero, hr.zero, add_zero, hr.zero]
      · have hjc : j = c := by omega
        rw [hjc, div_self h0, hr.one, mul_one]
        have hfx := hs i c (by rw [hrows]; exact hi) (by rw [hcols]; exact hcc)
        rw [hr.neg _ hfx, add_neg_cancel, hr.zero]
    · rw [if_neg hmem]
      have hic : i ≤ c := by
        rcases Nat.lt_or_ge c i with h | h
        · exact absurd ((f3 i).2 ⟨h, hi⟩) hmem
        · exact h
      by_cases hie : i = c
      · rw [hie, hdc]
        refine ⟨fun h => ?_, fun h => ?_⟩
        · rw [← h, div_self h0, hr.one]
        · rw [(hst c j (by omega) h).2 h, zero_div, hr.zero]
      · rw [hdo i j hie]
        refine ⟨fun h => ?_, fun h => ?_⟩
        · exact (hst i j (by omega) (by omega)).1 h
        · exact (hst i j (by omega) (by omega)).2 h

/-! ## The loop over columns -/

theorem forward_ok (r : Rat → Rat) {z : Rat → Bool} (hz : Sound z) : ∀ (n c e : Nat) (m : Mat), e ≤ c → e ≤ m.rows → c + n ≤ m.cols → ∃ m' e' c', forward r z n c m e = .ok (m', e', c') ∧
    m'.rows = m.rows ∧ m'.cols = m.cols ∧ e' ≤ e + n ∧ e' ≤ m.rows ∧ c' ≤ c + n ∧ e' ≤ c' ∧ (r = id → ∀ x, Solves m' x ↔ Solves m x) ∧
    (e' = c + n → e = c) ∧ (Nice r → Fixed r m → Fixed r m') ∧ (Nice r → Fixed r m → Tri m c → e = c → e' = c + n → Tri m' (c + n) ∧ c' = c + n)
  | 0, c, e, m, h1, h2, h3 => ⟨m, e, c, rfl, rfl, rfl, by omega, h2, by omega, h1, fun _ _ => Iff.rfl, fun h => by omega, fun _ h => h, fun _ _ ht _ _ => ⟨ht, rfl⟩⟩
  | n + 1, c, e, m, h1, h2, h3 => by
    rw [forward]
    by_cases hb : e = m.rows
    · rw [if_pos hb]
      exact ⟨m, e, c, rfl, rfl, rfl, by omega, h2, by omega, h1, fun _ _ => Iff.rfl, fun h => by omega, fun _ h => h, fun _ _ _ he h => by omega⟩
    · rw [if_neg hb, if_neg (by omega)]
      have he : e < m.rows := by omega
      obtain ⟨m1, e1, s1, s2, s3, s4⟩ := step_ok r hz m c e
      rw [s1, Res.bind_ok]
      obtain ⟨m', e', c', i0, i1, i2, i3, i4, i5, i6, i7, i8, i9, i10⟩ := forward_ok r hz n (c + 1) e1 m1 (by omega) (by omega) (by omega)
      refine ⟨m', e', c', i0, by omega, by omega, by omega, by omega, by omega, i6, ?_, fun h => ?_, fun hr hf => i9 hr (step_fixed hr hz he s1 hf), fun hr hf ht hec h => ?_⟩
      · intro hr x
        rw [i7 hr x]
        subst hr
        exact step_solves hz he s1 x
      · have := i8 (by omega)
        omega
      · have he1 := i8 (by omega)
        subst hec
        have : e1 = e + 1 := by omega
        subst this
        have := i10 hr (step_fixed hr hz he s1 hf) (step_tri hr hz he (by omega) s1 hf ht) rfl (by omega)
        have hcn : e + (n + 1) = e + 1 + n := by omega
        rw [hcn]
        exact this

/-! ## Back substitution -/

theorem back_solves : ∀ (c : Nat) (m : Mat), (0 < c → c < m.rows) → ∀ x, Solves (back id c m) x ↔ Solves m x
  | 0, m, _, x => Iff.rfl
  | c + 1, m, h, x => by
    rw [back]
    have hn : (List.range (c + 1)).Nodup := List.nodup_range
    have hm : c + 1 ∉ List.range (c + 1) := by simp
    obtain ⟨h1, -, -⟩ := clearRows_at id (c + 1) (c + 1) _ m hn hm
    rw [back_solves c _ (by rw [h1]; intro _; have := h (by omega); omega), solves_clear m _ _ (h (by omega)) _ hn hm]

theorem back_ident {r : Rat → Rat} (hr : Nice r) (n : Nat) : ∀ (c : Nat) (m : Mat), c < n → n ≤ m.rows → n ≤ m.cols → Fixed r m → Tri m n →
    (∀ i j, i < m.rows → c < j → j < n → i < j → m.at_ i j = 0) → Ident (back r c m) n ∧ (back r c m).rows = m.rows ∧ (back r c m).cols = m.cols
  | 0, m, hc, hn, hnc, hf, ht, hu => by
    refine ⟨fun i j hi hj => ?_, rfl, rfl⟩
    rw [back]
    rcases Nat.lt_trichotomy i j with h | h | h
    · rw [if_neg (by omega)]; exact hu i j hi (by omega) hj h
    · rw [if_pos h]; exact (ht i j hi hj).1 h
    · rw [if_neg (by omega)]; exact (ht i j hi hj).2 h
  | c + 1, m, hc, hn, hnc, hf, ht, hu => by
    rw [back]
    have hnd : (List.range (c + 1)).Nodup := List.nodup_range
    have hm : c + 1 ∉ List.range (c + 1) := by simp
    obtain ⟨h1, h2, h3⟩ := clearRows_at r (c + 1) (c + 1) _ m hnd hm
    generalize clearRows r m (c + 1) (c + 1) (List.range (c + 1)) = m1 at *
    have hat : ∀ i j, i < c + 1 → m1.at_ i j = r (m.at_ i j + r (-m.at_ i (c + 1) * m.at_ (c + 1) j)) := fun i j hi => by rw [h3, if_pos (by simpa using hi)]
    have hat' : ∀ i j, c + 1 ≤ i → m1.at_ i j = m.at_ i j := fun i j hi => by rw [h3, if_neg (by simp; omega)]
    have hf1 : Fixed r m1 := by
      intro i j hi hj
      rcases Nat.lt_or_ge i (c + 1) with h | h
      · rw [hat i j h]; exact hr.idem _
      · rw [hat' i j h]; exact hf i j (by omega) (by omega)
    have key : ∀ i j, i < c + 1 → j < c + 1 → m1.at_ i j = m.at_ i j := by
      intro i j hi hj
      rw [hat i j hi, (ht (c + 1) j (by omega) (by omega)).2 hj, mul_zero, hr.zero, add_zero, hf i j (by omega) (by omega)]
    have ht1 : Tri m1 n := by
      intro i j hi hj
      rcases Nat.lt_or_ge i (c + 1) with h | h
      · rcases Nat.lt_or_ge j (c + 1) with h' | h'
        · rw [key i j h h']; exact ht i j (by omega) hj
        · exact ⟨fun h => by omega, fun h => by omega⟩
      · rw [hat' i j h]; exact ht i j (by omega) hj
    obtain ⟨j1, j2, j3⟩ := back_ident hr n c m1 (by omega) (by omega) (by omega) hf1 ht1 (by
      intro i j hi hcj hjn hij
      rcases Nat.lt_or_ge i (c + 1) with h | h
      · rw [hat i j h]
        by_cases hj : j = c + 1
        · subst hj
          rw [(ht (c + 1) (c + 1) (by omega) hjn).1 rfl, mul_one, hr.neg _ (hf i (c + 1) (by omega) (by omega)), add_neg_cancel, hr.zero]
        · rw [hu i j (by omega) (by omega) hjn hij, hu (c + 1) j (by omega) (by omega) hjn (by omega), mul_zero, hr.zero, add_zero, hr.zero]
      · rw [hat' i j h]
        exact hu i j (by omega) (by omega) hjn hij)
    exact ⟨j1, by omega, by omega⟩

/-! ## Rank -/

/-- A triangle of ones with a column that is zero below it leaves more than one solution. -/
theorem tri_kernel {m : Mat} {c : Nat} (hc : c < m.cols) (ht : Tri m c) (h0 : ∀ i, c ≤ i → i < m.rows → m.at_ i c = 0) (hcr : c ≤ m.rows) :
    ∃ x : Nat → Rat, Solves m x ∧ x c = 1 ∧ ∀ j, c < j → x j = 0 := by
  have key : ∀ k, k ≤ c → ∃ x : Nat → Rat, x c = 1 ∧ (∀ j, c < j → x j = 0) ∧ (∀ j, j < c - k → x j = 0) ∧ ∀ i, c - k ≤ i → i < m.rows → dot m x i = 0 := by
    intro k
    induction k with
    | zero =>
      intro _
      refine ⟨fun j => if j = c then 1 else 0, by simp, fun j hj => by simp; omega, fun j hj => by simp; omega, fun i h1 h2 => ?_⟩
      unfold dot
      rw [Finset.sum_eq_single c]
      · rw [h0 i (by omega) h2, zero_mul]
      · intro j _ hj
        simp only []
        rw [if_neg hj, mul_zero]
      · intro h
        exact absurd (Finset.mem_range.2 hc) h
    | succ k ih =>
      intro hk
      obtain ⟨x, x1, x2, x3, x4⟩ := ih (by omega)
      generalize hb : c - (k + 1) = b at *
      have hb' : c - k = b + 1 := by omega
      rw [hb'] at x3 x4
      refine ⟨fun j => if j = b then -dot m x b else x j, ?_, ?_, ?_, ?_⟩
      · simp only []
        rw [if_neg (by omega), x1]
      · intro j hj
        simp only []
        rw [if_neg (by omega), x2 j hj]
      · intro j hj
        simp only []
        rw [if_neg (by omega), x3 j (by omega)]
      · intro i h1 h2
        have hd : dot m (fun j => if j = b then -dot m x b else x j) i = dot m x i + m.at_ i b * -dot m x b := by
          have hxb : x b = 0 := x3 b (by omega)
          unfold dot
          rw [← Finset.sum_erase_add _ _ (Finset.mem_range.2 (show b < m.cols by omega)), ← Finset.sum_erase_add (s := Finset.range m.cols) (f := fun j => m.at_ i j * x j) (a := b) (Finset.mem_range.2 (by omega)), hxb]
          have : ∑ j ∈ (Finset.range m.cols).erase b, (m.at_ i j * if j = b then -∑ j ∈ Finset.range m.cols, m.at_ b j * x j else x j) = ∑ j ∈ (Finset.range m.cols).erase b, m.at_ i j * x j :=
            Finset.sum_congr rfl fun j hj => by rw [if_neg (Finset.ne_of_mem_erase hj)]
          rw [this]
          simp only []
          rw [if_pos trivial]
          ring
        rw [hd]
        by_cases hib : i = b
        · rw [hib, (ht b b (by omega) (by omega)).1 rfl]; ring
        · rw [(ht i b h2 (by omega)).2 (by omega), x4 i (by omega) h2]; ring
  obtain ⟨x, x1, x2, -, x4⟩ := key c (Nat.le_refl _)
  exact ⟨x, fun i hi => x4 i (by omega) hi, x1, x2⟩

/-- With a test that is true of 0 only, a column without pivot is one that depends on those before. -/
theorem forward_kernel {z : Rat → Bool} (hz : ∀ x, z x = true ↔ x = 0) : ∀ (n c : Nat) (m m' : Mat) (e' c' : Nat), c ≤ m.rows → c + n ≤ m.cols → Tri m c →
    forward id z n c m c = .ok (m', e', c') → e' ≠ c + n → ∃ x : Nat → Rat, Solves m x ∧ (∃ j, j < c + n ∧ x j ≠ 0) ∧ ∀ j, c + n ≤ j → x j = 0
  | 0, c, m, m', e', c', h1, h2, ht, h, hne => by
    injection h with h
    injection h with h h'
    injection h' with h' h''
    omega
  | n + 1, c, m, m', e', c', h1, h2, ht, h, hne => by
    have hs : Sound z := (hz 0).2 rfl
    rw [forward] at h
    by_cases hb : c = m.rows
    · obtain ⟨x, x1, x2, x3⟩ := tri_kernel (by omega) ht (fun i h3 h4 => by omega) h1
      exact ⟨x, x1, ⟨c, by omega, by rw [x2]; exact one_ne_zero⟩, fun j hj => x3 j (by omega)⟩
    · rw [if_neg hb, if_neg (by omega)] at h
      have hc : c < m.rows := by omega
      obtain ⟨m1, e1, s1, s2, s3, s4⟩ := step_ok id hs m c c
      rw [s1, Res.bind_ok] at h
      obtain ⟨hm0, hm, hmax⟩ := maxRow_spec m c c hc
      by_cases he : e1 = c + 1
      · subst he
        obtain ⟨x, x1, x2, x3⟩ := forward_kernel hz n (c + 1) m1 m' e' c' (by omega) (by omega) (step_tri nice_id hs hc (by omega) s1 (fun _ _ _ _ => rfl) ht) h (by omega)
        refine ⟨x, (step_solves hs hc s1 x).1 x1, ?_, fun j hj => x3 j (by omega)⟩
        obtain ⟨j, hj, hx⟩ := x2
        exact ⟨j, by omega, hx⟩
      · have he1 : e1 = c := by omega
        -- no pivot: the column is zero from row `c` on
        have hp : m.at_ (maxRow m c c) c = 0 := by
          unfold step at s1
          simp only [] at s1
          cases hp : z ((swapRows m (maxRow m c c) c).at_ c c) with
          | true =>
            have := (hz _).1 hp
            rw [swap_at] at this
            by_cases hcm : c = maxRow m c c
            · rw [if_pos hcm] at this; rw [← hcm]; exact this
            · rw [if_neg hcm, if_pos rfl] at this; exact this
          | false =>
            have h0 : (swapRows m (maxRow m c c) c).at_ c c ≠ 0 := fun h => by rw [h, hs] at hp; cases hp
            rw [hp, if_neg (by simp), decide_eq_true (by rw [dabs_eq]; exact abs_pos.2 h0)] at s1
            injection s1 with s1
            injection s1 with s1 s1'
            omega
        obtain ⟨x, x1, x2, x3⟩ := tri_kernel (m := m) (by omega) ht (fun i h3 h4 => by
          have := hmax i h3 h4
          rw [hp, abs_zero] at this
          exact abs_eq_zero.1 (le_antisymm this (abs_nonneg _))) h1
        exact ⟨x, x1, ⟨c, by omega, by rw [x2]; exact one_ne_zero⟩, fun j hj => x3 j (by omega)⟩

end Verif.Matrix
