import Verif.Interp.Model
import Verif.Interp.Spec

/-! # Helper lemmas for the interpolation search -/

namespace Verif.Interp

variable {α : Type}

theorem rd_of_lb {lt : α → α → Bool} {a : List α} {v : α} {r : Nat} (h : IsLowerBound lt a v r) {i : Nat} (hi : i < a.length) :
    ∃ x, rd a i = .ok x ∧ lt x v = decide (i < r) := by
  refine ⟨a[i], ?_, ?_⟩
  · simp [rd, List.getElem?_eq_getElem hi]
  · have := h.2 i a[i] (List.getElem?_eq_getElem hi)
    by_cases hr : i < r
    · simp [hr, this.2 hr]
    · simp only [hr, decide_false]
      cases hl : lt a[i] v
      · rfl
      · exact absurd (this.1 hl) hr

theorem rdBefore_of_lb {lt : α → α → Bool} {a : List α} {v : α} {r : Nat} (h : IsLowerBound lt a v r) {i : Nat} (h0 : 0 < i)
    (hi : i ≤ a.length) : ∃ x, rdBefore a i = .ok x ∧ lt x v = decide (i - 1 < r) := by
  obtain ⟨x, h1, h2⟩ := rd_of_lb h (i := i - 1) (by omega)
  exact ⟨x, by simp [rdBefore, show ¬ i = 0 by omega, h1], h2⟩

/-- Loop invariant of the interpolation steps. -/
structure Inv (n r b e len : Nat) : Prop where
  he : e = b + len
  hb : b < r
  hr : r < e
  hn : e ≤ n

theorem interpSteps_ok {lt : α → α → Bool} {est : α → α → α → Nat → Res Nat} {a : List α} {v : α} {r : Nat}
    (h : IsLowerBound lt a v r)
    (hest : InRange lt est a v) :
    ∀ (k b e len : Nat), Inv a.length r b e len →
      interpSteps lt est a v k b e len = .ok (.ret r) ∨
      ∃ b' e' len', interpSteps lt est a v k b e len = .ok (.go b' e' len') ∧ Inv a.length r b' e' len' ∧
        len' + k ≤ len := by
  intro k
  induction k with
  | zero => intro b e len hi; exact .inr ⟨b, e, len, rfl, hi, Nat.le_refl _⟩
  | succ k ih =>
    intro b e len hi
    have := hi.he; have := hi.hb; have := hi.hr; have := hi.hn
    obtain ⟨f, hf, hfv⟩ := rd_of_lb h (i := b) (by omega)
    obtain ⟨l, hl, hlv⟩ := rdBefore_of_lb h (i := e) (by omega) (by omega)
    have hfm : f ∈ a := by
      unfold rd at hf
      split at hf
      · next y hy => cases hf; exact List.mem_of_getElem? hy
      · cases hf
    have hlm : l ∈ a := by
      unfold rdBefore rd at hl
      split at hl
      · cases hl
      · split at hl
        · next y hy => cases hl; exact List.mem_of_getElem? hy
        · cases hl
    obtain ⟨eo, heo, hle⟩ := hest f l (len - 1) hfm hlm (by simpa using hfv.trans (by simp; omega))
      (by simpa using hlv.trans (by simp; omega)) (by omega)
    obtain ⟨x, hx, hxv⟩ := rd_of_lb h (i := b + eo) (by omega)
    simp only [interpSteps, show len > 0 by omega, if_true, hf, hl, heo, hx, Res.bind_ok]
    by_cases hlt : b + eo < r
    · obtain ⟨y, hy, hyv⟩ := rd_of_lb h (i := b + eo + 1) (by omega)
      simp only [hxv, hlt, decide_true, if_true, hy, Res.bind_ok, hyv]
      by_cases h2 : b + eo + 1 < r
      · simp only [h2, decide_true, Bool.not_true, Bool.false_eq_true, if_false, show ¬ len < eo + 1 by omega]
        rcases ih (b + eo + 1) e (len - (eo + 1)) ⟨by omega, by omega, by omega, by omega⟩ with h3 | ⟨b', e', l', h3, h4, h5⟩
        · exact .inl h3
        · exact .inr ⟨b', e', l', h3, h4, by omega⟩
      · left
        have : b + eo + 1 = r := by omega
        simp [this]
    · obtain ⟨y, hy, hyv⟩ := rdBefore_of_lb h (i := b + eo) (by omega) (by omega)
      simp only [hxv, hlt, decide_false, Bool.false_eq_true, if_false, hy, Res.bind_ok, hyv]
      by_cases h2 : b + eo - 1 < r
      · left
        have e1 : b + eo = r := by omega
        rw [decide_eq_true h2, if_pos rfl, e1]; rfl
      · simp only [h2, decide_false, Bool.false_eq_true, if_false]
        rcases ih b (b + eo) eo ⟨by omega, by omega, by omega, by omega⟩ with h3 | ⟨b', e', l', h3, h4, h5⟩
        · exact .inl h3
        · exact .inr ⟨b', e', l', h3, h4, by omega⟩

theorem lowerBound_ok {lt : α → α → Bool} {a : List α} {v : α} {r : Nat} (h : IsLowerBound lt a v r) :
    ∀ (fuel b len : Nat), len < fuel → b ≤ r → r ≤ b + len → b + len ≤ a.length → lowerBound lt a v fuel b len = .ok r := by
  intro fuel
  induction fuel with
  | zero => intro b len h1; omega
  | succ fuel ih =>
    intro b len h1 h2 h3 h4
    unfold lowerBound
    by_cases hl : len > 0
    · obtain ⟨x, hx, hxv⟩ := rd_of_lb h (i := b + len / 2) (by omega)
      simp only [hl, if_true, hx, Res.bind_ok, hxv]
      by_cases hlt : b + len / 2 < r
      · simp only [hlt, decide_true, if_true]
        exact ih _ _ (by omega) (by omega) (by omega) (by omega)
      · simp only [hlt, decide_false, Bool.false_eq_true, if_false]
        exact ih _ _ (by omega) (by omega) (by omega) (by omega)
    · simp only [hl, if_false]
      rw [show b = r by omega]

/-- Invariant of the binary steps. -/
structure BInv (n r : Nat) (s : Bin) : Prop where
  he : s.e = s.b + s.len
  hb : s.b ≤ r
  hr : r ≤ s.e
  hn : s.e ≤ n
  hB : s.adjB = false → s.b < r
  hE : s.adjE = false → r < s.e
  hE' : s.adjE = true → s.e < n

theorem binSteps_ok {lt : α → α → Bool} {a : List α} {v : α} {r : Nat} (h : IsLowerBound lt a v r) :
    ∀ (k : Nat) (s : Bin), BInv a.length r s →
      ∃ s', binSteps lt a v k s = .ok s' ∧ BInv a.length r s' ∧ (s'.len ≤ s.len) ∧ (0 < k → 0 < s.len → s'.len < s.len) := by
  intro k
  induction k with
  | zero => intro s hs; exact ⟨s, rfl, hs, Nat.le_refl _, by omega⟩
  | succ k ih =>
    intro s hs
    unfold binSteps
    have := hs.he; have := hs.hb; have := hs.hr; have := hs.hn
    by_cases hl : s.len > 0
    · obtain ⟨x, hx, hxv⟩ := rd_of_lb h (i := s.b + s.len / 2) (by omega)
      simp only [hl, if_true, hx, Res.bind_ok, hxv]
      by_cases hlt : s.b + s.len / 2 < r
      · simp only [hlt, decide_true, if_true]
        obtain ⟨s', h1, h2, h3, h4⟩ := ih { s with b := s.b + s.len / 2 + 1, len := s.len - (s.len / 2 + 1), adjB := true }
          ⟨by dsimp only; omega, by dsimp only; omega, by dsimp only; omega, hs.hn, by simp, hs.hE, hs.hE'⟩
        dsimp only at h3
        exact ⟨s', h1, h2, by omega, by omega⟩
      · simp only [hlt, decide_false, Bool.false_eq_true, if_false]
        obtain ⟨s', h1, h2, h3, h4⟩ := ih { s with e := s.b + s.len / 2, len := s.len / 2, adjE := true }
          ⟨rfl, hs.hb, by dsimp only; omega, by dsimp only; omega, hs.hB, by simp, by dsimp only; omega⟩
        dsimp only at h3
        exact ⟨s', h1, h2, by omega, by omega⟩
    · simp only [hl, if_false]
      exact ⟨s, rfl, hs, Nat.le_refl _, fun _ h => h.elim⟩

theorem binPhase_ok {lt : α → α → Bool} {a : List α} {v : α} {r : Nat} (h : IsLowerBound lt a v r) {k b e len : Nat}
    (hi : Inv a.length r b e len) :
    binPhase lt a v k b e len = .ok (.ret r) ∨
    ∃ b' e' len', binPhase lt a v k b e len = .ok (.go b' e' len') ∧ Inv a.length r b' e' len' ∧ len' ≤ len ∧ (0 < k → len' < len) := by
  have := hi.he; have := hi.hb; have := hi.hr; have := hi.hn
  have h0 : BInv a.length r ⟨b, e, len, false, false⟩ :=
    ⟨hi.he, Nat.le_of_lt hi.hb, Nat.le_of_lt hi.hr, hi.hn, fun _ => hi.hb, fun _ => hi.hr, by simp⟩
  obtain ⟨s, h1, hs, h3, h4⟩ := binSteps_ok h k _ h0
  dsimp only at h3 h4
  have := hs.he; have := hs.hb; have := hs.hr; have := hs.hn
  simp only [binPhase, h1, Res.bind_ok]
  have hbn : s.b < a.length := by
    cases hE : s.adjE
    · have := hs.hE hE; omega
    · have := hs.hE' hE; omega
  have hB : repairB lt a v s = .ok (some r) ∨ (repairB lt a v s = .ok none ∧ s.b < r) := by
    unfold repairB
    cases hb : s.adjB
    · exact .inr ⟨by simp, hs.hB hb⟩
    · obtain ⟨x, hx, hxv⟩ := rd_of_lb h hbn
      simp only [if_true, hx, Res.bind_ok, hxv]
      by_cases hlt : s.b < r
      · simp [hlt]
      · left; simp [hlt]; omega
  rcases hB with hB | ⟨hB, hlt⟩
  · left; simp [hB]
  · have hE : repairE lt a v s = .ok (some r) ∨ (repairE lt a v s = .ok none ∧ r < s.e) := by
      unfold repairE
      cases hb : s.adjE
      · exact .inr ⟨by simp, hs.hE hb⟩
      · obtain ⟨x, hx, hxv⟩ := rdBefore_of_lb h (i := s.e) (by omega) hs.hn
        simp only [if_true, hx, Res.bind_ok, hxv]
        by_cases hlt : s.e - 1 < r
        · left; simp [hlt]; omega
        · right
          refine ⟨by simp [hlt], by omega⟩
    rcases hE with hE | ⟨hE, hlt2⟩
    · left; simp [hB, hE]
    · right
      refine ⟨s.b, s.e, s.len, by simp [hB, hE], ⟨hs.he, hlt, hlt2, hs.hn⟩, h3, fun hk => h4 hk (by omega)⟩

theorem mainLoop_ok {p : Params} (hp : 0 < p.isteps + p.bsteps) {lt : α → α → Bool} {est : α → α → α → Nat → Res Nat}
    {a : List α} {v : α} {r : Nat} (h : IsLowerBound lt a v r)
    (hest : InRange lt est a v) :
    ∀ (fuel b e len : Nat), len < fuel → Inv a.length r b e len → mainLoop p lt est a v fuel b e len = .ok r := by
  intro fuel
  induction fuel with
  | zero => intro b e len h1; omega
  | succ fuel ih =>
    intro b e len h1 hi
    have := hi.he; have := hi.hb; have := hi.hr; have := hi.hn
    unfold mainLoop
    simp only [show len > 0 by omega, if_true]
    rcases interpSteps_ok h hest p.isteps b e len hi with h2 | ⟨b1, e1, l1, h2, hi1, h3⟩
    · simp [h2]
    · have := hi1.he; have := hi1.hb; have := hi1.hr; have := hi1.hn
      simp only [h2, Res.bind_ok, show ¬ l1 = 0 by omega, if_false]
      by_cases hbel : l1 ≤ p.below
      · simp only [hbel, if_true]
        exact lowerBound_ok h _ _ _ (by omega) (by omega) (by omega) (by omega)
      · simp only [hbel, if_false]
        rcases binPhase_ok h (k := p.bsteps) hi1 with h4 | ⟨b2, e2, l2, h4, hi2, h5, h6⟩
        · simp [h4]
        · simp only [h4, Res.bind_ok]
          apply ih _ _ _ _ hi2
          by_cases hk : 0 < p.bsteps
          · have := h6 hk; omega
          · omega

theorem search_ok {p : Params} (hp : 0 < p.isteps + p.bsteps) {lt : α → α → Bool} {est : α → α → α → Nat → Res Nat}
    {a : List α} {v : α} {r : Nat} (h : IsLowerBound lt a v r)
    (hest : InRange lt est a v) : search p lt est a v = .ok r := by
  unfold search
  have hle := h.1
  by_cases h0 : a.length = 0
  · simp only [h0, if_true]
    rw [show r = 0 by omega]
  · obtain ⟨f, hf, hfv⟩ := rd_of_lb h (i := 0) (by omega)
    obtain ⟨l, hl, hlv⟩ := rdBefore_of_lb h (i := a.length) (by omega) (Nat.le_refl _)
    simp only [h0, if_false, hf, Res.bind_ok, hfv]
    by_cases hr : 0 < r
    · simp only [hr, decide_true, if_true, hl, Res.bind_ok, hlv]
      by_cases hrn : a.length - 1 < r
      · simp only [hrn, decide_true, if_true]
        rw [show r = a.length by omega]; rfl
      · simp only [hrn, decide_false, Bool.false_eq_true, if_false]
        exact mainLoop_ok hp h hest _ _ _ _ (by omega) ⟨by omega, hr, by omega, Nat.le_refl _⟩
    · simp only [hr, decide_false, Bool.false_eq_true, if_false]
      rw [show r = 0 by omega]; rfl

/-- A partitioned range has a lower bound. -/
theorem exists_lb {lt : α → α → Bool} {v : α} : ∀ (a : List α), Partitioned lt a v → ∃ r, IsLowerBound lt a v r := by
  intro a
  induction a with
  | nil => intro _; exact ⟨0, Nat.le_refl _, by simp⟩
  | cons c cs ih =>
    intro hp
    have hp' : Partitioned lt cs v := by
      intro i j x y hij hi hj hy
      exact hp (i + 1) (j + 1) x y (by omega) (by simpa using hi) (by simpa using hj) hy
    cases hc : lt c v
    · refine ⟨0, Nat.zero_le _, ?_⟩
      intro i x hx
      constructor
      · intro hlt
        cases i with
        | zero => simp at hx; subst hx; simp [hc] at hlt
        | succ i =>
          have := hp 0 (i + 1) c x (by omega) (by simp) hx hlt
          simp [hc] at this
      · omega
    · obtain ⟨r, hr1, hr2⟩ := ih hp'
      refine ⟨r + 1, by simp; omega, ?_⟩
      intro i x hx
      cases i with
      | zero => simp at hx; subst hx; simp [hc]
      | succ i =>
        have := hr2 i x (by simpa using hx)
        rw [this]; omega

end Verif.Interp
