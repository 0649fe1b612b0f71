import Verif.LogHisto.Dbl
import Verif.LogHisto.Props

/-! # C105, C107: logarithmic histograms with rounding -/

namespace Verif.LogHisto

open Verif Histo

/-! ## Specification -/

/-- Where a value belongs, in bins from the lower bound: its bin is the whole part. -/
noncomputable def place (n : Nat) (small high x : ℝ) : ℝ := n * Real.log (x / small) / Real.log (high / small)

/-- How near to the edge of a bin the rounding may matter. -/
noncomputable def blur (n : Nat) (small high x : ℝ) : ℝ := slack n (Real.log (high / small)) (place n small high x)

/-- The value belongs in bin `i` and not near to an edge; the end bins are for everything beyond. -/
def Inside (small high : ℝ) (n i : Nat) (v : ℝ) : Prop := (i = 0 ∨ i + blur n small high v ≤ place n small high v) ∧ (i + 1 = n ∨ place n small high v < i + 1 - blur n small high v)

/-- The value belongs in bin `i` or near to it. -/
def Nearby (small high : ℝ) (n i : Nat) (v : ℝ) : Prop := (i = 0 ∨ i - blur n small high v ≤ place n small high v) ∧ (i + 1 = n ∨ place n small high v < i + 1 + blur n small high v)

/-! ## One value -/

theorem new_parts {A : Ar} {k : Nat} {small high : ℝ} {scal : Bool} {h : L} (hnew : new A k small high scal = .ok h) (hk : k < 2 ^ 31) :
    0 < small ∧ small < high ∧ 0 < h.n ∧ h.n < 2 ^ 31 + 1 ∧ h.small = small ∧ h.high = high ∧ h.scal = scal ∧ h.scaling = A.r (h.n / A.lg (A.r (high / small))) ∧ h.bins = List.replicate h.n 0 ∧ h.count = 0 := by
  unfold new at hnew
  simp only [Res.bind_eq_ok] at hnew
  obtain ⟨_, e1, _, e2, _, e3, e⟩ := hnew
  have hb : 0 < k := by
    by_contra h
    rw [decide_eq_false h] at e1
    cases e1
  have hs : 0 < small := by
    by_contra h
    rw [decide_eq_false h] at e2
    cases e2
  have hh : small ≤ high := by
    by_contra h
    rw [decide_eq_false h] at e3
    cases e3
  split at e
  · cases e
  · rename_i hne
    cases e
    have hm : 2 * ((k + 1) / 2) % 2 ^ 32 = 2 * ((k + 1) / 2) := Nat.mod_eq_of_lt (by omega)
    refine ⟨hs, lt_of_le_of_ne hh hne, ?_, ?_, rfl, rfl, rfl, rfl, rfl, rfl⟩
    · show 0 < 2 * ((k + 1) / 2) % 2 ^ 32; omega
    · show 2 * ((k + 1) / 2) % 2 ^ 32 < _; omega

theorem blur_pos {n : Nat} {small high x : ℝ} (hs : 0 < small) (hh : small < high) : 0 ≤ blur n small high x := by
  unfold blur slack
  have : 0 < Real.log (high / small) := Real.log_pos (by rw [one_lt_div hs]; exact hh)
  positivity

/-- C105 with rounding, one value: in a histogram whose bounds are not too near to each other, a value less than `2^31` bins away is counted in a bin; in its own, unless it is near to the edge. -/
theorem log_double_bin {A : Ar} (hA : Close A) {k : Nat} {small high : ℝ} {scal : Bool} {h : L} (hnew : new A k small high scal = .ok h) (hk : k < 2 ^ 31) (hL : 1 / 2 ^ 30 ≤ Real.log (high / small)) (x : ℝ) (hx0 : 0 < x)
    (ht : place h.n small high x < 2 ^ 31) :
    ∃ i, sampleBin A h x = .ok i ∧ i < h.n ∧ Nearby small high h.n i x := by
  obtain ⟨hs, hh, hn0, hn, es, eh, ec, esc, -, -⟩ := new_parts hnew hk
  have hL0 : 0 < Real.log (high / small) := Real.log_pos (by rw [one_lt_div hs]; exact hh)
  have hb := blur_pos (n := h.n) (x := x) hs hh
  unfold sampleBin
  rw [es, esc]
  split
  · rename_i hle
    refine ⟨0, rfl, hn0, Or.inl rfl, Or.inr ?_⟩
    have hle1 : Real.log (x / small) ≤ 0 := Real.log_nonpos (by positivity) (by rw [div_le_one hs]; exact hle)
    have : place h.n small high x ≤ 0 := by
      unfold place
      exact div_nonpos_of_nonpos_of_nonneg (mul_nonpos_of_nonneg_of_nonpos (Nat.cast_nonneg _) hle1) (le_of_lt hL0)
    push_cast
    linarith
  · rename_i hgt
    obtain ⟨q0, qe⟩ := index_near (n := h.n) hA hs (lt_of_not_ge hgt) hL hh
    change |_ - place h.n small high x| ≤ blur h.n small high x at qe
    set q := A.r (A.r (h.n / A.lg (A.r (high / small))) * A.lg (A.r (x / small)))
    obtain ⟨qa, qb⟩ := abs_le.1 qe
    have ht0 : 0 ≤ place h.n small high x := by
      unfold place
      have : 0 ≤ Real.log (x / small) := Real.log_nonneg (by rw [one_le_div hs]; linarith)
      positivity
    have hblur : blur h.n small high x ≤ 2 ^ 31 := by
      unfold blur slack
      rw [abs_of_nonneg ht0]
      have hnr : (h.n : ℝ) ≤ 2 ^ 31 := by
        have : h.n ≤ 2 ^ 31 := by omega
        exact_mod_cast this
      have h1 : (h.n + place h.n small high x) / Real.log (high / small) ≤ 2 ^ 32 * 2 ^ 30 := by
        rw [div_le_iff₀ hL0]
        have := mul_le_mul_of_nonneg_left hL (show (0 : ℝ) ≤ 2 ^ 32 * 2 ^ 30 by norm_num)
        norm_num at this ht ⊢
        linarith
      rw [div_le_iff₀ (by norm_num)]
      norm_num at h1 ht ⊢
      linarith
    have hq : q < 2 ^ 32 := by norm_num at ht hblur ⊢; linarith
    have hf0 : 0 ≤ ⌊q⌋ := Int.floor_nonneg.2 q0
    have hfl : ⌊q⌋ < 2 ^ 32 := by
      rw [Int.floor_lt]; push_cast; norm_num at hq ⊢; exact hq
    have hto : toU32 q = .ok ⌊q⌋.toNat := by
      unfold toU32
      rw [if_pos ⟨hf0, hfl⟩]
    rw [hto, Res.bind_ok]
    obtain ⟨b, hbq⟩ := Int.eq_ofNat_of_zero_le hf0
    have f1 := Int.floor_le q
    have f2 := Int.lt_floor_add_one q
    rw [hbq] at f1 f2
    rw [hbq]
    push_cast at f1 f2
    have hbn : ((b : Nat) : Int).toNat = b := Int.toNat_natCast b
    rw [hbn]
    split
    · rename_i hge
      refine ⟨h.n - 1, rfl, by omega, Or.inr ?_, Or.inl (by omega)⟩
      have h1 : ((h.n - 1 : Nat) : ℝ) ≤ b := by
        have : h.n - 1 ≤ b := by omega
        exact_mod_cast this
      linarith
    · rename_i hlt
      exact ⟨b, rfl, by omega, Or.inr (by linarith), Or.inr (by linarith)⟩

/-- A value that is inside of a bin is nearby of no other. -/
theorem inside_nearby {small high : ℝ} {n i j : Nat} (hi : i < n) (hj : j < n) {v : ℝ} (h1 : Inside small high n i v) (h2 : Nearby small high n j v) : j = i := by
  obtain ⟨a1, a2⟩ := h1
  obtain ⟨b1, b2⟩ := h2
  rcases Nat.lt_trichotomy j i with h | h | h
  · exfalso
    have hji : (j : ℝ) + 1 ≤ i := by exact_mod_cast h
    rcases a1 with a1 | a1
    · omega
    · rcases b2 with b2 | b2
      · omega
      · linarith
  · exact h
  · exfalso
    have hji : (i : ℝ) + 1 ≤ j := by exact_mod_cast h
    rcases b1 with b1 | b1
    · omega
    · rcases a2 with a2 | a2
      · omega
      · linarith

/-! ## Histories -/

/-- The bin of a value. -/
noncomputable def binOf (A : Ar) (h : L) (v : ℝ) : Nat := match sampleBin A h v with | .ok i => i | _ => 0

theorem count_snoc (f : ℝ → Nat) (vs : List ℝ) (v : ℝ) (i : Nat) : (vs ++ [v]).countP (fun v => decide (f v = i)) = vs.countP (fun v => decide (f v = i)) + if f v = i then 1 else 0 := by
  rw [List.countP_append, List.countP_cons, List.countP_nil]
  by_cases h : f v = i <;> simp [h]

/-- The state of a histogram that does not scale. -/
structure Fix (A : Ar) (h0 : L) (vs : List ℝ) (h : L) : Prop where
  n : h.n = h0.n
  small : h.small = h0.small
  scaling : h.scaling = h0.scaling
  scal : h.scal = false
  len : h.bins.length = h0.n
  bins : ∀ i, i < h0.n → h.bins[i]? = some (vs.countP fun v => decide (binOf A h0 v = i))

theorem sampleBin_fix {A : Ar} {h0 h : L} (h1 : h.n = h0.n) (h2 : h.small = h0.small) (h3 : h.scaling = h0.scaling) (v : ℝ) : sampleBin A h v = sampleBin A h0 v := by
  unfold sampleBin
  rw [h1, h2, h3]

theorem bump_fix {A : Ar} {h0 h : L} {vs : List ℝ} (hF : Fix A h0 vs h) (c : Nat) {v : ℝ} {i : Nat} (e : sampleBin A h0 v = .ok i) (hi : i < h0.n) :
    ∃ h', bump A { h with count := c } v = .ok (i, h') ∧ Fix A h0 (vs ++ [v]) h' := by
  have e1 : sampleBin A { h with count := c } v = .ok i := by rw [← e]; exact sampleBin_fix hF.n hF.small hF.scaling v
  have hb := hF.bins i hi
  have hlt : i < h.bins.length := by rw [hF.len]; exact hi
  have hr : PQ.rd h.bins i = .ok (vs.countP fun v => decide (binOf A h0 v = i)) := by
    unfold PQ.rd
    rw [hb]
  unfold bump
  rw [e1, Res.bind_ok]
  show ∃ h', (PQ.rd h.bins i >>= fun x => PQ.wr h.bins i (x + 1) >>= fun b => _) = _ ∧ _
  rw [hr, Res.bind_ok, PQ.wr_eq _ _ _ hlt, Res.bind_ok]
  refine ⟨_, rfl, hF.n, hF.small, hF.scaling, hF.scal, by simpa using hF.len, ?_⟩
  intro j hj
  show (h.bins.set i _)[j]? = _
  have hv : binOf A h0 v = i := by unfold binOf; rw [e]
  rw [count_snoc, hv]
  by_cases hij : i = j
  · subst hij
    rw [List.getElem?_set_self hlt, if_pos rfl]
  · rw [List.getElem?_set_ne hij, hF.bins j hj, if_neg hij, Nat.add_zero]

theorem add_fix {A : Ar} {h0 h : L} {vs : List ℝ} (hF : Fix A h0 vs h) (m : Nat) {v : ℝ} (hv : 0 < v) {i : Nat} (e : sampleBin A h0 v = .ok i) (hi : i < h0.n) :
    ∃ h', add A m h v = .ok h' ∧ Fix A h0 (vs ++ [v]) h' := by
  obtain ⟨h', e1, e2⟩ := bump_fix hF (h.count + 1) e hi
  refine ⟨h', ?_, e2⟩
  unfold add
  rw [decide_eq_true hv, Res.require_true, Res.bind_ok]
  unfold addScale
  rw [if_neg (by
    intro hc
    have h1 : h.scal = true := hc.1
    rw [hF.scal] at h1; cases h1), Res.bind_ok, e1]
  rfl

theorem run_fix {A : Ar} {h0 : L} (m : Nat) (hF : Fix A h0 [] h0) : ∀ ops : List Op, (∀ o ∈ ops, Legal o) → (∀ o ∈ ops, ∀ v ∈ given o, ∃ i, sampleBin A h0 v = .ok i ∧ i < h0.n) →
    ∃ h, run A m h0 ops = .ok h ∧ Fix A h0 (vals ops) h := by
  intro ops
  induction ops using List.reverseRecOn with
  | nil => intro _ _; exact ⟨h0, rfl, hF⟩
  | append_singleton ops o ih =>
    intro hl hb
    obtain ⟨h, e, hI⟩ := ih (fun o ho => hl o (List.mem_append_left _ ho)) (fun o ho => hb o (List.mem_append_left _ ho))
    have hlo := hl o (List.mem_append_right _ (List.mem_singleton.mpr rfl))
    have hbo := hb o (List.mem_append_right _ (List.mem_singleton.mpr rfl))
    rw [run_snoc, e, Res.bind_ok, vals_snoc]
    cases o with
    | add v =>
      obtain ⟨i, h1, h2⟩ := hbo v (List.mem_singleton.mpr rfl)
      exact add_fix hI m hlo h1 h2
    | add2 x d =>
      obtain ⟨i, h1, h2⟩ := hbo x (List.mem_singleton.mpr rfl)
      obtain ⟨h', h3, h4⟩ := add_fix hI m hlo.1 h1 h2
      refine ⟨h', ?_, h4⟩
      show add2 A m h x d = _
      unfold add2
      rw [decide_eq_true hlo.2, Res.require_true, Res.bind_ok]
      exact h3
    | reset =>
      refine ⟨reset h, rfl, hI.n, hI.small, hI.scaling, hI.scal, ?_, ?_⟩
      · show (List.replicate h.n 0).length = _
        rw [List.length_replicate]; exact hI.n
      · intro i hi
        show (List.replicate h.n 0)[i]? = _
        rw [List.getElem?_replicate, if_pos (by rw [hI.n]; exact hi)]
        rfl

open Classical in
/-- C105 with rounding: a histogram that does not scale counts in each bin all values inside of it, and no value that is not nearby. -/
theorem log_double_partial {A : Ar} (hA : Close A) {k : Nat} {small high : ℝ} {h0 : L} (hnew : new A k small high false = .ok h0) (hk : k < 2 ^ 31) (hL : 1 / 2 ^ 30 ≤ Real.log (high / small))
    (m : Nat) (ops : List Op) (hl : ∀ o ∈ ops, Legal o) (hv : ∀ o ∈ ops, ∀ v ∈ given o, place h0.n small high v < 2 ^ 31) :
    ∃ h, run A m h0 ops = .ok h ∧ h.n = h0.n ∧ h.bins.length = h0.n ∧ h.bins.sum = (vals ops).length ∧
      ∀ i, i < h0.n → ∃ c, h.bins[i]? = some c ∧ ((vals ops).countP fun v => decide (Inside small high h0.n i v)) ≤ c ∧ c ≤ ((vals ops).countP fun v => decide (Nearby small high h0.n i v)) := by
  obtain ⟨hs, hh, hn0, hn, es, eh, ec, esc, eb, e0⟩ := new_parts hnew hk
  have hpos : ∀ o ∈ ops, ∀ v ∈ given o, 0 < v := by
    intro o ho v hgv
    have := hl o ho
    cases o with
    | add w => obtain rfl := List.mem_singleton.mp hgv; exact this
    | add2 w d => obtain rfl := List.mem_singleton.mp hgv; exact this.1
    | reset => cases hgv
  have hF : Fix A h0 [] h0 := by
    refine ⟨rfl, rfl, rfl, ec, by rw [eb, List.length_replicate], ?_⟩
    intro i hi
    rw [eb, List.getElem?_replicate, if_pos hi]
    rfl
  obtain ⟨h, e, hI⟩ := run_fix m hF ops hl (fun o ho v hgv => by
    obtain ⟨i, h1, h2, -⟩ := log_double_bin hA hnew hk hL v (hpos o ho v hgv) (hv o ho v hgv)
    exact ⟨i, h1, h2⟩)
  have hmem : ∀ v ∈ vals ops, ∃ i, sampleBin A h0 v = .ok i ∧ i < h0.n ∧ Nearby small high h0.n i v := by
    intro v hvm
    obtain ⟨o, ho, hgv⟩ : ∃ o ∈ ops, v ∈ given o := by
      clear hI e h hv hpos
      revert hvm
      induction ops using List.reverseRecOn with
      | nil => intro h; cases h
      | append_singleton ops o ih =>
        intro hvm
        rw [vals_snoc] at hvm
        have key : v ∈ vals ops → ∃ o' ∈ ops ++ [o], v ∈ given o' := by
          intro h
          obtain ⟨o', h1, h2⟩ := ih (fun o ho => hl o (List.mem_append_left _ ho)) h
          exact ⟨o', List.mem_append_left _ h1, h2⟩
        cases o with
        | add w =>
          rcases List.mem_append.mp hvm with h | h
          · exact key h
          · exact ⟨.add w, List.mem_append_right _ (List.mem_singleton.mpr rfl), h⟩
        | add2 w d =>
          rcases List.mem_append.mp hvm with h | h
          · exact key h
          · exact ⟨.add2 w d, List.mem_append_right _ (List.mem_singleton.mpr rfl), h⟩
        | reset => cases hvm
    exact log_double_bin hA hnew hk hL v (hpos o ho v hgv) (hv o ho v hgv)
  refine ⟨h, e, hI.n, hI.len, (log_total_any A (by omega) hnew ops e).2.2.1, ?_⟩
  intro i hi
  refine ⟨_, hI.bins i hi, ?_, ?_⟩
  · apply List.countP_mono_left
    intro v hvm hin
    obtain ⟨j, h1, h2, h3⟩ := hmem v hvm
    have hb : binOf A h0 v = j := by unfold binOf; rw [h1]
    rw [decide_eq_true_iff] at hin ⊢
    rw [hb]
    exact inside_nearby hi h2 hin h3
  · apply List.countP_mono_left
    intro v hvm hin
    obtain ⟨j, h1, h2, h3⟩ := hmem v hvm
    have hb : binOf A h0 v = j := by unfold binOf; rw [h1]
    rw [decide_eq_true_iff] at hin ⊢
    rw [hb] at hin
    rw [← hin]
    exact h3

/-- An arithmetic that rounds up, with a logarithm that is too large. -/
noncomputable def upwards : Ar := ⟨fun x => x + |x| / 2 ^ 53, fun x => Real.log x + |Real.log x| / 2 ^ 52, Real.exp⟩

/-- The hypotheses of `log_double_partial`: an arithmetic that is not exact, and a value in the middle of the second of four bins. -/
theorem upwards_close : Close upwards := by
  refine ⟨fun x => ?_, fun x h => ?_, fun x _ => ?_⟩
  · show |x + |x| / 2 ^ 53 - x| ≤ _
    rw [add_sub_cancel_left, abs_of_nonneg (by positivity)]
  · show 1 ≤ x + |x| / 2 ^ 53
    have : 0 ≤ |x| / 2 ^ 53 := by positivity
    linarith
  · show |Real.log x + |Real.log x| / 2 ^ 52 - Real.log x| ≤ _
    rw [add_sub_cancel_left, abs_of_nonneg (by positivity)]

theorem place_sample : place 4 1 16 3 = Real.log 3 / Real.log 2 := by
  unfold place
  have h : Real.log 16 = 4 * Real.log 2 := by
    rw [show (16 : ℝ) = 2 ^ (4 : ℕ) by norm_num, Real.log_pow]; norm_num
  have h2 : Real.log 2 ≠ 0 := ne_of_gt (Real.log_pos (by norm_num))
  rw [div_one, div_one, h]
  field_simp
  norm_num

example : Close upwards ∧ (∃ h0, new upwards 4 1 16 false = .ok h0 ∧ h0.n = 4) ∧ 1 / 2 ^ 30 ≤ Real.log (16 / 1) ∧ place 4 1 16 3 < 2 ^ 31 ∧ Inside 1 16 4 1 3 := by
  have l2 : 0 < Real.log 2 := Real.log_pos (by norm_num)
  have l3 : Real.log 2 < Real.log 3 := Real.log_lt_log (by norm_num) (by norm_num)
  have h16 : Real.log 16 = 4 * Real.log 2 := by
    rw [show (16 : ℝ) = 2 ^ (4 : ℕ) by norm_num, Real.log_pow]; norm_num
  have h32 : 3 * Real.log 2 ≤ 2 * Real.log 3 := by
    have : Real.log (2 ^ (3 : ℕ)) ≤ Real.log (3 ^ (2 : ℕ)) := Real.log_le_log (by norm_num) (by norm_num)
    rw [Real.log_pow, Real.log_pow] at this
    push_cast at this; linarith
  have h53 : 5 * Real.log 3 ≤ 8 * Real.log 2 := by
    have : Real.log (3 ^ (5 : ℕ)) ≤ Real.log (2 ^ (8 : ℕ)) := Real.log_le_log (by norm_num) (by norm_num)
    rw [Real.log_pow, Real.log_pow] at this
    push_cast at this; linarith
  have hl2 : 1 / 2 ≤ Real.log 2 := by
    have := Real.one_sub_inv_le_log_of_pos (show (0 : ℝ) < 2 by norm_num)
    norm_num at this
    linarith
  have p1 : 3 / 2 ≤ Real.log 3 / Real.log 2 := by rw [le_div_iff₀ l2]; linarith
  have p2 : Real.log 3 / Real.log 2 ≤ 8 / 5 := by rw [div_le_iff₀ l2]; linarith
  have hb : blur 4 1 16 3 ≤ 1 / 100 := by
    unfold blur slack
    rw [place_sample, div_one, h16, abs_of_nonneg (by linarith)]
    have : (((4 : ℕ) : ℝ) + Real.log 3 / Real.log 2) / (4 * Real.log 2) ≤ 6 := by
      rw [div_le_iff₀ (by linarith)]
      push_cast; linarith
    rw [div_le_iff₀ (by norm_num)]
    norm_num at *
    linarith
  refine ⟨upwards_close, ⟨reset ⟨false, 4, 1, 16, upwards.r ((4 : Nat) / upwards.lg (upwards.r (16 / 1))), [], 0, 0⟩, ?_, ?_⟩, by rw [div_one, h16]; norm_num; linarith, by rw [place_sample]; norm_num; linarith, Or.inr ?_, Or.inr ?_⟩
  · unfold new
    rw [decide_eq_true (by norm_num), Res.require_true, Res.bind_ok, decide_eq_true (by norm_num), Res.require_true, Res.bind_ok, decide_eq_true (by norm_num), Res.require_true, Res.bind_ok,
      if_neg (by norm_num)]
    rfl
  · rfl
  · rw [place_sample]; push_cast; linarith
  · rw [place_sample]; push_cast; linarith

/-! ## C107 -/

/-- Sums as a machine makes them. -/
noncomputable def total (A : Ar) (ds : List ℝ) : ℝ := ds.foldl (fun y d => A.r (y + d)) 0

theorem total_err {A : Ar} (hA : Close A) (ds : List ℝ) : |total A ds - ds.sum| ≤ ((1 + 1 / 2 ^ 53) ^ ds.length - 1) * (ds.map fun d => |d|).sum := by
  induction ds using List.reverseRecOn with
  | nil => simp [total]
  | append_singleton ds d ih =>
    have e : total A (ds ++ [d]) = A.r (total A ds + d) := by unfold total; rw [List.foldl_append]; rfl
    rw [e]
    simp only [List.sum_append, List.sum_cons, List.sum_nil, add_zero, List.map_append, List.map_cons, List.map_nil, List.length_append, List.length_cons, List.length_nil, zero_add]
    have h1 := hA.err (total A ds + d)
    set S := (ds.map fun d => |d|).sum
    set p := ((1 : ℝ) + 1 / 2 ^ 53) ^ ds.length
    have hp : 1 ≤ p := one_le_pow₀ (by norm_num)
    have hsum : |ds.sum| ≤ S := by
      have key : ∀ l : List ℝ, |l.sum| ≤ (l.map fun d => |d|).sum := by
        intro l
        induction l with
        | nil => simp
        | cons a l ih =>
          rw [List.map_cons, List.sum_cons, List.sum_cons]
          exact le_trans (abs_add_le _ _) (by linarith)
      exact key ds
    have h2 : |total A ds + d| ≤ p * S + |d| := by
      have : total A ds + d = (total A ds - ds.sum) + (ds.sum + d) := by ring
      rw [this]
      have h3 := abs_add_le (total A ds - ds.sum) (ds.sum + d)
      have h4 := abs_add_le ds.sum d
      linarith
    have h5 : A.r (total A ds + d) - (ds.sum + d) = (A.r (total A ds + d) - (total A ds + d)) + (total A ds - ds.sum) := by ring
    rw [h5]
    have h6 := abs_add_le (A.r (total A ds + d) - (total A ds + d)) (total A ds - ds.sum)
    rw [pow_succ]
    have hd : 0 ≤ |d| := abs_nonneg d
    have hdp : |d| * (1 / 2 ^ 53) ≤ (p * (1 + 1 / 2 ^ 53) - 1) * |d| := by
      have h7 : (1 : ℝ) / 2 ^ 53 ≤ p * (1 + 1 / 2 ^ 53) - 1 := by
        have := mul_le_mul_of_nonneg_right hp (show (0 : ℝ) ≤ 1 + 1 / 2 ^ 53 by norm_num)
        linarith
      have := mul_le_mul_of_nonneg_right h7 hd
      linarith
    have h8 : |total A ds + d| / 2 ^ 53 ≤ (p * S + |d|) / 2 ^ 53 := div_le_div_of_nonneg_right h2 (by norm_num)
    have h9 : (p * (1 + 1 / 2 ^ 53) - 1) * (S + |d|) = (p - 1) * S + p * S / 2 ^ 53 + (p * (1 + 1 / 2 ^ 53) - 1) * |d| := by ring
    rw [h9]
    have h10 : (p * S + |d|) / 2 ^ 53 = p * S / 2 ^ 53 + |d| * (1 / 2 ^ 53) := by ring
    linarith

/-- The state of a histogram that sums up. -/
structure FixA (A : Ar) (h0 : L) (ps : List (ℝ × ℝ)) (a : LA) : Prop where
  fix : Fix A h0 (ps.map Prod.fst) a.h
  len : a.val.length = h0.n
  val : ∀ i, i < h0.n → a.val[i]? = some (total A ((ps.filter fun p => decide (binOf A h0 p.1 = i)).map Prod.snd))

theorem addA_fix {A : Ar} {h0 : L} {a : LA} {ps : List (ℝ × ℝ)} (hF : FixA A h0 ps a) {x d : ℝ} {i : Nat} (e : sampleBin A h0 x = .ok i) (hi : i < h0.n) :
    ∃ a', addA A a x d = .ok a' ∧ FixA A h0 (ps ++ [(x, d)]) a' := by
  obtain ⟨h', e1, e2⟩ := bump_fix hF.fix (a.h.count + 1) e hi
  have hlt : i < a.val.length := by rw [hF.len]; exact hi
  have hr : PQ.rd a.val i = .ok (total A ((ps.filter fun p => decide (binOf A h0 p.1 = i)).map Prod.snd)) := by
    unfold PQ.rd
    rw [hF.val i hi]
  unfold addA
  rw [e1, Res.bind_ok]
  show ∃ a', (PQ.rd a.val i >>= fun y => PQ.wr a.val i (A.r (y + d)) >>= fun c => Res.ok (⟨h', c⟩ : LA)) = _ ∧ _
  rw [hr, Res.bind_ok, PQ.wr_eq _ _ _ hlt, Res.bind_ok]
  refine ⟨_, rfl, by rw [List.map_append]; exact e2, by simpa using hF.len, ?_⟩
  intro j hj
  show (a.val.set i _)[j]? = _
  have hv : binOf A h0 x = i := by unfold binOf; rw [e]
  by_cases hij : i = j
  · subst hij
    rw [List.getElem?_set_self hlt, List.filter_append]
    have hf : [(x, d)].filter (fun p => decide (binOf A h0 p.1 = i)) = [(x, d)] := by simp [hv]
    rw [hf, List.map_append]
    unfold total
    rw [List.foldl_append]
    rfl
  · rw [List.getElem?_set_ne hij, hF.val j hj, List.filter_append]
    have hf : [(x, d)].filter (fun p => decide (binOf A h0 p.1 = j)) = [] := by simp [hv, hij]
    rw [hf, List.append_nil]

theorem resetA_fix {A : Ar} {h0 : L} {a : LA} {ps : List (ℝ × ℝ)} (hF : FixA A h0 ps a) : ∃ a', resetA a = .ok a' ∧ FixA A h0 [] a' := by
  refine ⟨⟨reset a.h, List.replicate h0.n 0⟩, ?_, ⟨hF.fix.n, hF.fix.small, hF.fix.scaling, hF.fix.scal, ?_, ?_⟩, by simp, ?_⟩
  · unfold resetA
    rw [zero_all _ _ _ _ (by rw [hF.len, hF.fix.n]; omega), Res.bind_ok, hF.fix.n]
    simp
  · show (List.replicate a.h.n 0).length = _
    rw [List.length_replicate]; exact hF.fix.n
  · intro i hi
    show (List.replicate a.h.n 0)[i]? = _
    rw [List.getElem?_replicate, if_pos (by rw [hF.fix.n]; exact hi)]
    rfl
  · intro i hi
    rw [List.getElem?_replicate, if_pos hi]
    rfl

theorem runA_fix {A : Ar} {h0 : L} {a0 : LA} (hF : FixA A h0 [] a0) : ∀ ops : List OpA, (∀ x d, OpA.add x d ∈ ops → ∃ i, sampleBin A h0 x = .ok i ∧ i < h0.n) →
    ∃ a, runA A a0 ops = .ok a ∧ FixA A h0 (pairs ops) a := by
  intro ops
  induction ops using List.reverseRecOn with
  | nil => exact fun _ => ⟨a0, rfl, hF⟩
  | append_singleton ops o ih =>
    intro hb
    obtain ⟨a, e, hI⟩ := ih (fun x d ho => hb x d (List.mem_append_left _ ho))
    rw [runA_snoc, e, Res.bind_ok, pairs_snoc]
    cases o with
    | add x d =>
      obtain ⟨i, h1, h2⟩ := hb x d (by simp)
      exact addA_fix hI h1 h2
    | reset => exact resetA_fix hI

open Classical in
/-- C107 with rounding: there is an assignment of bins, in which everything up to the lower bound is in the first bin and everything else in its own or near to it, such that each bin has counted its pairs,
    and its sum is that of their data up to the error of adding so many numbers. -/
theorem log_accum_double_partial {A : Ar} (hA : Close A) {k : Nat} {small high : ℝ} {a0 : LA} (hnew : newA A k small high = .ok a0) (hk : k < 2 ^ 31) (hL : 1 / 2 ^ 30 ≤ Real.log (high / small))
    (ops : List OpA) (hv : ∀ x d, OpA.add x d ∈ ops → x ≤ small ∨ place a0.h.n small high x < 2 ^ 31) :
    ∃ (a : LA) (f : ℝ → Nat), runA A a0 ops = .ok a ∧ a.h.n = a0.h.n ∧ a.h.bins.length = a0.h.n ∧ a.val.length = a0.h.n ∧
      (∀ p ∈ pairs ops, f p.1 < a0.h.n ∧ (p.1 ≤ small → f p.1 = 0) ∧ (small < p.1 → Nearby small high a0.h.n (f p.1) p.1)) ∧
      ∀ i, i < a0.h.n →
        let data := ((pairs ops).filter fun p => decide (f p.1 = i)).map Prod.snd
        a.h.bins[i]? = some data.length ∧ ∃ s, a.val[i]? = some s ∧ |s - data.sum| ≤ ((1 + 1 / 2 ^ 53) ^ data.length - 1) * (data.map fun d => |d|).sum := by
  unfold newA at hnew
  rw [Res.bind_eq_ok] at hnew
  obtain ⟨h0, hnew0, hnew⟩ := hnew
  obtain ⟨hs, hh, hn0, hn, es, eh, ec, esc, eb, e0⟩ := new_parts hnew0 hk
  have hF0 : Fix A h0 [] h0 := by
    refine ⟨rfl, rfl, rfl, ec, by rw [eb, List.length_replicate], ?_⟩
    intro i hi
    rw [eb, List.getElem?_replicate, if_pos hi]
    rfl
  have hF1 : FixA A h0 [] ⟨h0, List.replicate h0.n 0⟩ := ⟨hF0, by simp, fun i hi => by rw [List.getElem?_replicate, if_pos hi]; rfl⟩
  obtain ⟨a1, er, hF⟩ := resetA_fix hF1
  rw [hnew] at er
  cases er
  have hn' : a0.h.n = h0.n := hF.fix.n
  rw [hn'] at hv ⊢
  have hbin : ∀ x, (x ≤ small ∨ place h0.n small high x < 2 ^ 31) → ∃ i, sampleBin A h0 x = .ok i ∧ i < h0.n ∧ (x ≤ small → i = 0) ∧ (small < x → Nearby small high h0.n i x) := by
    intro x hx
    by_cases hxs : x ≤ small
    · exact ⟨0, by unfold sampleBin; rw [es, if_pos hxs], hn0, fun _ => rfl, fun h => absurd hxs (not_le.mpr h)⟩
    · obtain ⟨i, h1, h2, h3⟩ := log_double_bin hA hnew0 hk hL x (by linarith) (hx.resolve_left hxs)
      exact ⟨i, h1, h2, fun h => absurd h hxs, fun _ => h3⟩
  obtain ⟨a, e, hI⟩ := runA_fix hF ops (fun x d ho => by
    obtain ⟨i, h1, h2, -⟩ := hbin x (hv x d ho)
    exact ⟨i, h1, h2⟩)
  refine ⟨a, binOf A h0, e, hI.fix.n, hI.fix.len, hI.len, ?_, ?_⟩
  · intro p hp
    have hmem : OpA.add p.1 p.2 ∈ ops := by
      clear hI e a hv
      revert hp
      induction ops using List.reverseRecOn with
      | nil => intro h; cases h
      | append_singleton ops o ih =>
        intro hp
        rw [pairs_snoc] at hp
        cases o with
        | add x d =>
          rcases List.mem_append.mp hp with h | h
          · exact List.mem_append_left _ (ih h)
          · obtain rfl := List.mem_singleton.mp h
            simp
        | reset => cases hp
    obtain ⟨i, h1, h2, h3, h4⟩ := hbin p.1 (hv p.1 p.2 hmem)
    have hb : binOf A h0 p.1 = i := by unfold binOf; rw [h1]
    rw [hb]
    exact ⟨h2, h3, h4⟩
  · intro i hi data
    refine ⟨?_, _, hI.val i hi, ?_⟩
    · rw [hI.fix.bins i hi]
      congr 1
      show _ = data.length
      rw [List.length_map, ← List.countP_eq_length_filter, List.countP_map]
      apply List.countP_congr
      intro p _
      simp
    · have hd : ((pairs ops).filter fun p => decide (binOf A h0 p.1 = i)).map Prod.snd = data := by
        show _ = List.map _ _
        congr 1
      rw [hd]
      exact total_err hA data

/-- The hypotheses of `log_accum_double_partial`. -/
example : ∃ a0, newA upwards 4 1 16 = .ok a0 ∧ a0.h.n = 4 ∧ ∀ x d, OpA.add x d ∈ [OpA.add (-3) 7, .add 3 (-2), .reset, .add 3 1] → x ≤ 1 ∨ place a0.h.n 1 16 x < 2 ^ 31 := by
  refine ⟨⟨reset ⟨false, 4, 1, 16, upwards.r ((4 : Nat) / upwards.lg (upwards.r (16 / 1))), [], 0, 0⟩, List.replicate 4 0⟩, ?_, rfl, ?_⟩
  · unfold newA new
    rw [decide_eq_true (by norm_num), Res.require_true, Res.bind_ok, decide_eq_true (by norm_num), Res.require_true, Res.bind_ok, decide_eq_true (by norm_num), Res.require_true, Res.bind_ok,
      if_neg (by norm_num)]
    show resetA ⟨reset ⟨false, 4, 1, 16, _, [], 0, 0⟩, List.replicate 4 0⟩ = _
    unfold resetA
    rw [zero_all _ _ _ _ (by rw [List.length_replicate]; rfl), Res.bind_ok]
    rfl
  · intro x d h
    have hp : place 4 1 16 3 < 2 ^ 31 := by
      have l2 : 0 < Real.log 2 := Real.log_pos (by norm_num)
      have l3 : Real.log 3 ≤ Real.log (2 ^ (2 : ℕ)) := Real.log_le_log (by norm_num) (by norm_num)
      rw [Real.log_pow] at l3
      rw [place_sample, div_lt_iff₀ l2]
      push_cast at l3
      norm_num
      linarith
    simp only [List.mem_cons, OpA.add.injEq, List.not_mem_nil, or_false, reduceCtorEq, false_or] at h
    rcases h with ⟨rfl, -⟩ | ⟨rfl, -⟩ | ⟨rfl, -⟩
    · left; norm_num
    · right; exact hp
    · right; exact hp

end Verif.LogHisto
