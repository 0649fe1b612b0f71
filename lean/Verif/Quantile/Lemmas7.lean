import Verif.Quantile.Lemmas6
import Verif.Quantile.Ctor3

/-! # What a sketch stores, and answers -/

namespace Verif.Quantile

open Verif

variable {V : Type} [LinearOrder V]

theorem storedIn_some (m : Nat) (x : Slot V) {l : List V} {r : List (Option V)} (hb : x.buf = some (l.map some ++ r)) (hm : m = l.length) :
    storedIn m x = l.map fun v => (v, x.weight) := by
  subst hm
  unfold storedIn
  rw [hb, Option.getD_some, List.take_left' (by simp), List.filterMap_map]
  simp

theorem sum_weight (w : Int) : ∀ l : List V, ((l.map fun v => (v, w)).map Prod.snd).sum = w * l.length
  | [] => by simp
  | v :: l => by
    rw [List.map_cons, List.map_cons, List.sum_cons, sum_weight w l, List.length_cons]
    push_cast
    ring

theorem stored_full {k : Nat} : ∀ {fs : List (Slot V)} {bs : List (Buf V)}, List.Forall₂ (IsFull k) fs bs →
    ((fs.flatMap (storedIn k)).map Prod.snd).sum = ((wsum bs * k : Nat) : Int) ∧ (∀ x ∈ fs.flatMap (storedIn k), ∃ d ∈ bs, x.1 ∈ d.vals)
  | _, _, .nil => by simp [wsum]
  | x :: fs, d :: bs, .cons h hs => by
    obtain ⟨h1, h2⟩ := stored_full hs
    have e : storedIn k x = d.vals.map fun v => (v, x.weight) := storedIn_some k x (r := []) (by rw [h.buf, List.append_nil]) h.len.symm
    refine ⟨?_, ?_⟩
    · rw [List.flatMap_cons, List.map_append, List.sum_append, h1, e, sum_weight, h.weight, h.len]
      simp only [wsum, List.map_cons, List.sum_cons]
      push_cast
      ring
    · intro y hy
      rw [List.flatMap_cons, List.mem_append] at hy
      rcases hy with hy | hy
      · rw [e, List.mem_map] at hy
        obtain ⟨v, hv, rfl⟩ := hy
        exact ⟨d, List.mem_cons_self, hv⟩
      · obtain ⟨d', hd', hx⟩ := h2 y hy
        exact ⟨d', List.mem_cons_of_mem _ hd', hx⟩

theorem stored_ok {s : Sk V} {vals : List V} {xl xh : Nat} (hI : Inv s vals xl xh) :
    ((stored s).map Prod.snd).sum = (vals.length : Int) ∧ (∀ x ∈ stored s, x.1 ∈ vals) ∧ (∀ x ∈ s.slots, ∀ b, x.buf = some b → b.length = s.size) := by
  obtain ⟨bs, last, ⟨hB, hS⟩, hR, -⟩ := hI
  refine ⟨?_, ?_, fun x hx => (hB.bufs x hx).1⟩
  · rcases hS with ⟨g1, g2, rfl, rfl⟩ | ⟨hcur, hp, fs, x, rest, lv, hslots, hfs, hx, -⟩
    · have := hR.total
      simp only [wsum, List.map_nil, List.sum_nil, Nat.zero_mul, List.length_nil] at this
      simp [stored, g1, ← this]
    · have hbl : bs.length = fs.length := hfs.length_eq.symm
      have e1 : s.cur1 - 1 = fs.length := by omega
      unfold stored
      rw [e1, if_neg (by omega), hslots, List.take_left' rfl, List.getElem?_append_right (Nat.le_refl _), Nat.sub_self]
      simp only [List.getElem?_cons_zero, Option.toList_some, List.flatMap_cons, List.flatMap_nil, List.append_nil]
      obtain ⟨r, hb, -⟩ := hx.buf
      rw [List.map_append, List.sum_append, (stored_full hfs).1, storedIn_some s.pos x hb hp, sum_weight, hx.weight, ← hR.total]
      push_cast
      ring
  · rcases hS with ⟨g1, g2, rfl, rfl⟩ | ⟨hcur, hp, fs, x, rest, lv, hslots, hfs, hx, -⟩
    · simp [stored, g1]
    · have hbl : bs.length = fs.length := hfs.length_eq.symm
      have e1 : s.cur1 - 1 = fs.length := by omega
      unfold stored
      rw [e1, if_neg (by omega), hslots, List.take_left' rfl, List.getElem?_append_right (Nat.le_refl _), Nat.sub_self]
      simp only [List.getElem?_cons_zero, Option.toList_some, List.flatMap_cons, List.flatMap_nil, List.append_nil]
      obtain ⟨r, hb, -⟩ := hx.buf
      rw [storedIn_some s.pos x hb hp]
      intro y hy
      rcases List.mem_append.1 hy with hy | hy
      · obtain ⟨d, hd, hv⟩ := (stored_full hfs).2 y hy
        exact hR.memF d hd _ hv
      · obtain ⟨v, hv, rfl⟩ := List.mem_map.1 hy
        exact hR.memL v hv

theorem sane_length : ∀ {h : Hist V}, Sane h → (values h).length < 100000000000000
  | .new _ _ _ _, _ => by simp [values]
  | .add _ _, hs => hs.2
  | .merge _ _, hs => hs.2.2.1
  | .reset _, _ => by simp [values]
  | .query h _ _, hs => sane_length (h := h) hs.1

/-- The answer of a sketch. -/
theorem getQuantile_ok (c : Consts V) (R : Flt.Rounding) {h : Hist V} (hs : Sane h) (hne : values h ≠ []) {q : Rat} (h0 : 0 ≤ q) (h1 : q ≤ 1) {allow : Bool}
    (hb : (values h).length ≤ bound h ∨ allow = true) :
    ∃ s xl xh s' x, eval c h = .ok s ∧ Made h s xl xh ∧ getQuantile c R s q allow = .ok (s', some x) ∧ Inv s' (values h) xl xh ∧ x ∈ values h ∧
      (values h).countP (fun v => decide (v < x)) ≤ targetIndex R (values h).length q + s.lo ∧
      targetIndex R (values h).length q < (values h).countP (fun v => decide (v ≤ x)) + s.hi := by
  obtain ⟨s, xl, xh, e, m⟩ := eval_ok c h hs
  have hpos : 0 < (values h).length := List.length_pos_iff.2 hne
  have ht := (targetIndex_ok R hpos h0 h1).1
  have hb' : s.count ≤ s.nbound ∨ allow = true := by rw [m.count, m.nbound]; exact hb
  obtain ⟨s', x, e', hI, -, -, -, hx, g1, g2⟩ := query_ok c s m.inv m.count hne (targetIndex R (values h).length q) ht allow hb' (by
    rw [m.count]; exact sane_length hs)
  refine ⟨s, xl, xh, s', x, e, m, ?_, hI, hx, g1, g2⟩
  unfold getQuantile
  rw [if_neg (by rw [m.count]; omega)]
  have hreq : (decide (s.count ≤ s.nbound) || allow) = true := by
    rcases hb' with h | h
    · simp [h]
    · simp [h]
  rw [hreq, Res.require_true, Res.bind_ok, decide_eq_true (⟨h0, h1⟩ : 0 ≤ q ∧ q ≤ 1), Res.require_true, Res.bind_ok, m.count]
  exact e'

/-- Positions, from the error of the sketch. -/
theorem getQuantile_pos (c : Consts V) (R : Flt.Rounding) {h : Hist V} (hs : Sane h) (hne : values h ≠ []) {q : Rat} (h0 : 0 ≤ q) (h1 : q ≤ 1) {allow : Bool}
    (hb : (values h).length ≤ bound h ∨ allow = true) {ε : Rat} (hg : Good (Covers ε) h) :
    ∃ (s s' : Sk V) (x : V) (j : Nat), eval c h = .ok s ∧ getQuantile c R s q allow = .ok (s', some x) ∧ AtPos (values h) x j ∧
      ((values h).length : Rat) * (q - (depth h + 1) * ε - 2 / 10 ^ 15) ≤ j ∧
      (j = 1 ∨ (j : Rat) < (values h).length * (q + (depth h + 1) * ε) + 1) := by
  obtain ⟨s, xl, xh, s', x, e, m, e', hI, hx, g1, g2⟩ := getQuantile_ok c R hs hne h0 h1 hb
  have hpos : 0 < (values h).length := List.length_pos_iff.2 hne
  obtain ⟨t1, t2, t3⟩ := targetIndex_ok R hpos h0 h1
  obtain ⟨lo, hi⟩ := m.err hg
  have hlt := counts_lt hx
  have hε := hg.eps
  have hNq : (0 : Rat) ≤ (values h).length := Nat.cast_nonneg _
  have hDε : (0 : Rat) ≤ (depth h + 1) * ε := by positivity
  have hpos' : ∀ j : Nat, (values h).countP (fun v => decide (v < x)) < j → j ≤ (values h).countP (fun v => decide (v ≤ x)) → AtPos (values h) x j :=
    fun j a b => atPos_of_counts a b
  generalize (values h).countP (fun v => decide (v < x)) = a at *
  generalize (values h).countP (fun v => decide (v ≤ x)) = b at *
  generalize targetIndex R (values h).length q = t at *
  have hNε : (0 : Rat) ≤ (depth h + 1) * ε * (values h).length := mul_nonneg hDε hNq
  have t3' : t = 0 ∨ (t : Rat) < (values h).length * q := t3.imp id fun h => lt_of_lt_of_le h (mul_le_mul_of_nonneg_left (by norm_num) hNq)
  have hq : (0 : Rat) ≤ (values h).length * q := mul_nonneg hNq h0
  have e1 : ((values h).length : Rat) * (q - (depth h + 1) * ε - 2 / 10 ^ 15) = (values h).length * (q - 2 / 10 ^ 15) - (depth h + 1) * ε * (values h).length := by ring
  have e2 : ((values h).length : Rat) * (q + (depth h + 1) * ε) = (values h).length * q + (depth h + 1) * ε * (values h).length := by ring
  rw [e1, e2]
  generalize ((depth h : Rat) + 1) * ε * (values h).length = E at *
  by_cases c1 : t + 1 ≤ a
  · refine ⟨s, s', x, a + 1, e, e', hpos' _ (by omega) (by omega), ?_, Or.inr ?_⟩
    · have : ((t + 1 : Nat) : Rat) ≤ ((a + 1 : Nat) : Rat) := by exact_mod_cast (by omega : t + 1 ≤ a + 1)
      push_cast at this ⊢
      linarith
    · have hl : (s.lo : Rat) < E := by
        rcases lo with h | h
        · omega
        · exact h
      have : ((a + 1 : Nat) : Rat) ≤ ((t + s.lo + 1 : Nat) : Rat) := by exact_mod_cast (by omega : a + 1 ≤ t + s.lo + 1)
      push_cast at this ⊢
      rcases t3' with rfl | h
      · push_cast at this; linarith
      · linarith
  · by_cases c2 : t + 1 ≤ b
    · refine ⟨s, s', x, t + 1, e, e', hpos' _ (by omega) c2, ?_, ?_⟩
      · push_cast; linarith
      · rcases t3' with rfl | h
        · exact Or.inl rfl
        · right; push_cast; linarith
    · refine ⟨s, s', x, b, e, e', hpos' _ hlt (Nat.le_refl _), ?_, Or.inr ?_⟩
      · have : ((t + 1 : Nat) : Rat) ≤ ((b + s.hi : Nat) : Rat) := by exact_mod_cast (by omega : t + 1 ≤ b + s.hi)
        push_cast at this
        linarith
      · have : (b : Rat) ≤ t := by exact_mod_cast (by omega : b ≤ t)
        rcases t3' with rfl | h
        · omega
        · linarith

end Verif.Quantile
