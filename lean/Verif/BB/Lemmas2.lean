import Verif.BB.Lemmas

namespace Verif.BB

/-- A lone variable with its representation. -/
structure Lone (s : St) (i : Nat) (v : Var) (r : Rep) : Prop where
  wf : WF s
  solo : Solo s i v
  rep : s.heap[v.rep]? = some r
  ok : RepOk r

theorem Lone.getRep {s : St} {i : Nat} {v : Var} {r : Rep} (h : Lone s i v r) : getRep s i = .ok r :=
  getRep_eq h.solo.1 h.rep

theorem Lone.abs_self {s : St} {i : Nat} {v : Var} {r : Rep} (h : Lone s i v r) :
    abs s = (abs s).set i (some (view r v.rep v.cow)) := by
  rw [← viewVar_eq h.rep]
  have : (abs s)[i]? = some (some (viewVar s.heap v)) := (live_iff s i _).2 ⟨v, h.solo.1, rfl⟩
  obtain ⟨hi, e⟩ := List.getElem?_eq_some_iff.1 this
  rw [← e, List.set_getElem_self]

/-- Only cell `v.rep` of the heap may differ. -/
def SameElse (s s' : St) (v : Var) : Prop := ∀ k, k ≠ v.rep → s'.heap[k]? = s.heap[k]?

theorem Lone.store {s : St} {i : Nat} {v : Var} {r r' : Rep} (h : Lone s i v r) (hr : RepOk r') :
    Lone (store s v r') i v r' ∧ abs (BB.store s v r') = (abs s).set i (some (view r' v.rep v.cow)) ∧
      SameElse s (BB.store s v r') v := by
  obtain ⟨a, b, c, d⟩ := store_abs h.wf h.solo hr
  refine ⟨⟨a, b, d, hr⟩, c, fun k hk => ?_⟩
  simp only [BB.store]; rw [List.getElem?_set_ne (fun e => hk e.symm)]

theorem mutate_lone (J : Junk) {s : St} {i : Nat} {v : Var} {r r' : Rep} (h : Lone s i v r) (f : Rep → Res Rep)
    (hf : f r = .ok r') (hr : RepOk r') :
    ∃ s', mutate J s i f = .ok s' ∧ Lone s' i v r' ∧ abs s' = (abs s).set i (some (view r' v.rep v.cow)) ∧
      SameElse s s' v := by
  obtain ⟨a, b, c⟩ := h.store hr
  exact ⟨_, by rw [mutate_solo J h.wf h.solo h.rep, hf]; rfl, a, b, c⟩

theorem makeRoom_lone (J : Junk) {s : St} {i : Nat} {v : Var} {r : Rep} (h : Lone s i v r) (n : Nat) :
    ∃ s' r', makeRoom J s i n = .ok s' ∧ Lone s' i v r' ∧ abs s' = (abs s).set i (some (view r' v.rep v.cow)) ∧
      SameElse s s' v ∧ n ≤ r'.writeAvailable ∧
      (∀ g cow, view r' g cow = if n ≤ r.writeAvailable then view r g cow else
        ⟨r.contents, r.data.length + (n - r.writeAvailable), r.data.length + (n - r.writeAvailable) - r.contents.length, g, cow⟩) ∧
      (n ≤ r.writeAvailable → s' = s) := by
  unfold makeRoom
  rw [uniqueify_solo J h.wf h.solo, Res.bind_ok, h.getRep, Res.bind_ok]
  have hl := length_contents h.ok
  have hb := h.ok.bd
  have hf := h.ok.fb
  by_cases hlt : r.writeAvailable < n
  · rw [if_pos hlt]
    have hle : r.contents.length ≤ r.data.length + (n - r.writeAvailable) := by
      rw [hl]; simp only [Rep.readAvailable]; omega
    obtain ⟨r', e1, e2, e3⟩ := resize_ok h.ok (J s.seed) (r.data.length + (n - r.writeAvailable)) hle
    obtain ⟨s', m1, m2, m3, m4⟩ := mutate_lone J h
      (fun r => Rep.resizeBuffer (J s.seed) r (r.data.length + (n - r.writeAvailable))) e1 e2
    refine ⟨s', r', m1, m2, m3, m4, ?_, fun g cow => by rw [if_neg (by omega), e3], fun hn => by omega⟩
    have := e3 0 false
    simp only [view, Buf.mk.injEq] at this
    rw [this.2.2.1, hl]
    simp only [Rep.readAvailable, Rep.writeAvailable]
    omega
  · rw [if_neg hlt]
    exact ⟨s, r, rfl, h, h.abs_self, fun _ _ => rfl, by omega, fun g cow => by rw [if_pos (by omega)], fun _ => rfl⟩

theorem writeStart_lone (J : Junk) {s : St} {i : Nat} {v : Var} {r : Rep} (h : Lone s i v r) (bs : List Byte)
    (hb : bs.length ≤ r.writeAvailable) :
    ∃ s' r', writeStart J s i bs = .ok s' ∧ Lone s' i v r' ∧ abs s' = (abs s).set i (some (view r' v.rep v.cow)) ∧
      ∀ g cow, view r' g cow = ⟨r.contents ++ bs, r.data.length, r.writeAvailable - bs.length, g, cow⟩ := by
  obtain ⟨r', e1, e2, e3⟩ := writeStart_ok h.ok bs hb
  obtain ⟨s', m1, m2, m3, _⟩ := mutate_lone J h (fun r => do
    let pos := r.back
    let r ← r.extend bs.length
    r.put pos bs) e1 e2
  exact ⟨s', r', m1, m2, m3, e3⟩

/-- Room and then the bytes. -/
theorem grow_write_lone (J : Junk) {s : St} {i : Nat} {v : Var} {r : Rep} (h : Lone s i v r) (bs : List Byte) :
    ∃ s1 s' r', makeRoom J s i bs.length = .ok s1 ∧ writeStart J s1 i bs = .ok s' ∧ Lone s' i v r' ∧
      abs s' = (abs s).set i (some (view r' v.rep v.cow)) ∧ SameElse s s1 v ∧
      (bs.length ≤ r.writeAvailable → s1 = s) ∧
      ∀ g cow, view r' g cow = (view r g cow).add bs := by
  obtain ⟨s1, r1, e1, e2, e3, e4, e5, e6, e7⟩ := makeRoom_lone J h bs.length
  obtain ⟨s2, r2, f1, f2, f3, f4⟩ := writeStart_lone J e2 bs e5
  refine ⟨s1, s2, r2, e1, f1, f2, by rw [f3, e3, List.set_set], e4, e7, fun g cow => ?_⟩
  rw [f4]
  have := e6 0 false
  unfold Buf.add
  by_cases hb : bs.length ≤ r.writeAvailable
  · rw [if_pos hb] at this
    simp only [view, Buf.mk.injEq] at this
    rw [if_pos (by exact hb), this.1, this.2.1, this.2.2.1]
    rfl
  · rw [if_neg hb] at this
    simp only [view, Buf.mk.injEq] at this
    rw [if_neg (by exact hb), this.1, this.2.1, this.2.2.1]
    simp only [view, Nat.sub_sub]

theorem fill_lone (J : Junk) {s : St} {i : Nat} {v : Var} {r : Rep} (h : Lone s i v r) (bs : List Byte) (k : Nat)
    (hb : bs.length ≤ r.writeAvailable) (hk : k ≤ bs.length) :
    ∃ s' r', fill J s i bs k = .ok s' ∧ Lone s' i v r' ∧ abs s' = (abs s).set i (some (view r' v.rep v.cow)) ∧
      ∀ g cow, view r' g cow = ⟨r.contents ++ bs.take k, r.data.length, r.writeAvailable - k, g, cow⟩ := by
  obtain ⟨r1, e1, e2, e3, e4, e5, e6, e7, e8⟩ := append_ok h.ok bs k hb hk
  obtain ⟨s1, m1, m2, m3, _⟩ := mutate_lone J h (fun r => r.put r.back bs) e1 e2
  obtain ⟨s2, n1, n2, n3, _⟩ := mutate_lone J m2 (fun r => r.extend k) e6 e7
  refine ⟨s2, _, ?_, n2, by rw [n3, m3, List.set_set], e8⟩
  simp only [fill, m1, Res.bind_ok, n1]

theorem resizeBuffer_lone (J : Junk) {s : St} {i : Nat} {v : Var} {r : Rep} (h : Lone s i v r) (n : Nat)
    (hn : r.contents.length ≤ n) :
    ∃ s' r', resizeBuffer J s i n = .ok s' ∧ Lone s' i v r' ∧ abs s' = (abs s).set i (some (view r' v.rep v.cow)) ∧
      ∀ g cow, view r' g cow = ⟨r.contents, n, n - r.contents.length, g, cow⟩ := by
  obtain ⟨r', e1, e2, e3⟩ := resize_ok h.ok (J s.seed) n hn
  obtain ⟨s', m1, m2, m3, _⟩ := mutate_lone J h (fun r => Rep.resizeBuffer (J s.seed) r n) e1 e2
  exact ⟨s', r', m1, m2, m3, e3⟩

theorem view_fields {r : Rep} {c : List Byte} {n m : Nat} (h : ∀ g cow, view r g cow = ⟨c, n, m, g, cow⟩) :
    r.contents = c ∧ r.data.length = n ∧ r.writeAvailable = m := by
  have := h 0 false
  simp only [view, Buf.mk.injEq] at this
  exact ⟨this.1, this.2.1, this.2.2.1⟩

theorem entireLoop_lone (J : Junk) (i : Nat) (v : Var) (mx : Nat) : ∀ (fuel : Nat) (s : St) (r : Rep) (bs : List Byte)
    (total : Nat), Lone s i v r → r.data.length ≤ mx → (0 < r.data.length ∨ r.data.length = mx) →
    2 * (mx - r.data.length) + (if r.writeAvailable > 0 then 1 else 0) < fuel →
    ∃ s' r' k, entireLoop J i mx fuel s bs total = .ok (s', total + k) ∧ Lone s' i v r' ∧
      abs s' = (abs s).set i (some (view r' v.rep v.cow)) ∧ r'.contents = r.contents ++ bs.take k ∧ k ≤ bs.length ∧
      (k = bs.length ∨ r'.writeAvailable = 0 ∧ mx ≤ r'.data.length)
  | 0, _, _, _, _, _, _, _, hf => by omega
  | fuel + 1, s, r, bs, total, h, hmx, hpos, hf => by
    unfold entireLoop
    rw [h.getRep, Res.bind_ok, getVar_eq h.solo.1, Res.bind_ok]
    have hu := (unique_iff h.solo.1).2 h.solo
    by_cases hw : r.writeAvailable > 0
    · rw [if_pos hw, if_pos hu]
      obtain ⟨s1, r1, e1, e2, e3, e4⟩ := fill_lone J h (bs.take r.writeAvailable) (bs.take r.writeAvailable).length
        (by rw [List.length_take]; omega) (Nat.le_refl _)
      rw [e1, Res.bind_ok]
      rw [List.take_length] at e4
      obtain ⟨c1, c2, c3⟩ := view_fields e4
      by_cases hs : bs.length < r.writeAvailable
      · rw [if_pos hs]
        refine ⟨s1, r1, bs.length, rfl, e2, e3, ?_, Nat.le_refl _, .inl rfl⟩
        rw [c1, List.take_of_length_le (by omega), List.take_of_length_le (by omega)]
      · rw [if_neg hs]
        have hl : (bs.take r.writeAvailable).length = r.writeAvailable := by rw [List.length_take]; omega
        rw [hl] at c3
        obtain ⟨s', r', k, d1, d2, d3, d4, d5, d6⟩ := entireLoop_lone J i v mx fuel s1 r1 (bs.drop r.writeAvailable)
          (total + r.writeAvailable) e2 (by omega) (by omega) (by
            rw [if_pos hw] at hf
            rw [if_neg (by omega)]; omega)
        rw [List.length_drop] at d5 d6
        refine ⟨s', r', r.writeAvailable + k, by rw [d1, Nat.add_assoc], d2, by rw [d3, e3, List.set_set], ?_, by omega, ?_⟩
        · rw [d4, c1, List.append_assoc, List.take_add]
        · rcases d6 with d6 | d6
          · exact .inl (by omega)
          · exact .inr d6
    · rw [if_neg hw]
      by_cases hlt : r.data.length < mx
      · rw [if_pos hlt]
        have hl := length_contents h.ok
        have hbd := h.ok.bd
        obtain ⟨s1, r1, e1, e2, e3, e4⟩ := resizeBuffer_lone J h (min (r.data.length * 2) mx) (by
          rw [hl]; simp only [Rep.readAvailable]; omega)
        obtain ⟨c1, c2, c3⟩ := view_fields e4
        rw [e1, Res.bind_ok]
        have hgt : r.data.length < r1.data.length := by omega
        obtain ⟨s', r', k, d1, d2, d3, d4, d5, d6⟩ := entireLoop_lone J i v mx fuel s1 r1 bs total e2 (by omega) (by omega) (by
            split <;> omega)
        exact ⟨s', r', k, d1, d2, by rw [d3, e3, List.set_set], by rw [d4, c1], d5, d6⟩
      · rw [if_neg hlt, decide_eq_true (by omega), Res.require_true, Res.bind_ok]
        refine ⟨s, r, 0, rfl, h, h.abs_self, by simp, Nat.zero_le _, .inr ⟨by omega, by omega⟩⟩

end Verif.BB
