import Verif.BB.Lemmas2

namespace Verif.BB

/-- What one call may do. -/
def Meets (J : Junk) (s : St) (op : Op) : Prop :=
  BMisuse (abs s) op ∨ (BAborts (abs s) op ∧ step J s op = .abort) ∨
    ∃ s' o, step J s op = .ok (s', o) ∧ BStep (abs s) op o (abs s') ∧ WF s'

theorem hasVar_or_dead (s : St) (i : Nat) : (∃ v, HasVar s i v) ∨ Dead (abs s) i := by
  rw [dead_iff]
  by_cases h : ∃ v, HasVar s i v
  · exact .inl h
  · exact .inr (fun v hv => h ⟨v, hv⟩)

theorem own_contents {s : Bufs} {i : Nat} {b b1 : Buf} (h : Own s i b b1) : b1.contents = b.contents ∧ b1.cow = b.cow := by
  rcases h with ⟨_, rfl⟩ | ⟨_, g, _, rfl⟩ <;> exact ⟨rfl, rfl⟩

/-- The start of every call that writes. -/
theorem enter (J : Junk) {s : St} {i : Nat} {v : Var} (h : WF s) (hv : HasVar s i v) :
    (Blocked (abs s) i (viewVar s.heap v) ∧ uniqueify J s i = .abort) ∨
    (¬Blocked (abs s) i (viewVar s.heap v) ∧
    ∃ s1 v1 r1, uniqueify J s i = .ok s1 ∧ Lone s1 i v1 r1 ∧
      Own (abs s) i (viewVar s.heap v) (view r1 v1.rep v1.cow) ∧
      abs s1 = (abs s).set i (some (view r1 v1.rep v1.cow)) ∧ v1.cow = v.cow ∧
      (∀ k, k < s.heap.length → s1.heap[k]? = s.heap[k]?) ∧ (¬Solo s i v → v1.rep = s.heap.length) ∧
      (Solo s i v → s1 = s)) := by
  rcases uniqueify_ok J h hv with hb | ⟨hb, s1, v1, r1, he, a1, a2, a3, a4, a5, a6, a7, a8, a9, a10⟩
  · exact .inl hb
  · exact .inr ⟨hb, s1, v1, r1, he, ⟨a1, a2, a3, a4⟩, a5, a6, a7, a8, a9, a10⟩

theorem live_var {s : St} {i : Nat} {v : Var} (hv : HasVar s i v) : Live (abs s) i (viewVar s.heap v) :=
  (live_iff s i _).2 ⟨v, hv, rfl⟩

theorem meets_mutate (J : Junk) {s : St} {i : Nat} {v : Var} (h : WF s) (hv : HasVar s i v) (op : Op) (f : Rep → Res Rep)
    (F : Buf → Buf → Prop) (hop : step J s op = quiet (mutate J s i f))
    (hst : ∀ s', Changes (abs s) i s' F → BStep (abs s) op .unit s')
    (hab : Blocked (abs s) i (viewVar s.heap v) → BAborts (abs s) op)
    (hf : ∀ r g cow, RepOk r → ¬Blocked (abs s) i (viewVar s.heap v) → Own (abs s) i (viewVar s.heap v) (view r g cow) →
      (∃ r', f r = .ok r' ∧ RepOk r' ∧ F (view r g cow) (view r' g cow)) ∨ (f r = .abort ∧ BAborts (abs s) op) ∨
      BMisuse (abs s) op) : Meets J s op := by
  rcases mutate_ok J h hv f with ⟨hb, he⟩ | ⟨hb, s1, v1, r1, he, a1, a2, a3, a4, a5, a6, a7, a8⟩
  · exact .inr (.inl ⟨hab hb, by rw [hop, he]; rfl⟩)
  · rcases hf r1 v1.rep v1.cow a4 hb a5 with ⟨r', f1, f2, f3⟩ | ⟨f1, f2⟩ | f1
    · obtain ⟨b1, b2, b3, b4⟩ := store_abs a1 a2 f2
      refine .inr (.inr ⟨store s1 v1 r', .unit, by rw [hop, a8, f1]; rfl, ?_, b1⟩)
      refine hst _ ⟨_, _, _, live_var hv, a5, f3, ?_⟩
      rw [b3, a6, List.set_set]
    · exact .inr (.inl ⟨f2, by rw [hop, a8, f1]; rfl⟩)
    · exact .inl f1

theorem meets_consume (J : Junk) {s : St} (h : WF s) (i n : Nat) : Meets J s (.consume i n) := by
  rcases hasVar_or_dead s i with ⟨v, hv⟩ | hd
  · refine meets_mutate J h hv _ (·.consume n) _ rfl (fun s' hc => ⟨rfl, hc⟩) (fun hb => ⟨_, live_var hv, hb⟩) ?_
    intro r g cow hr hnb ho
    have hc := (own_contents ho).1
    simp only [view] at hc
    by_cases hn : n ≤ r.contents.length
    · obtain ⟨r', e1, e2, e3⟩ := consume_ok hr n hn
      exact .inl ⟨r', e1, e2, e3 g cow⟩
    · exact .inr (.inr (.inr ⟨_, live_var hv, hnb, by rw [← hc]; omega⟩))
  · exact .inl (.inl hd)

theorem meets_extend (J : Junk) {s : St} (h : WF s) (i n : Nat) : Meets J s (.extend i n) := by
  rcases hasVar_or_dead s i with ⟨v, hv⟩ | hd
  · refine meets_mutate J h hv _ (·.extend n) _ rfl (fun s' hc => ⟨rfl, hc⟩) (fun hb => ⟨_, live_var hv, .inl hb⟩) ?_
    intro r g cow hr hnb ho
    by_cases hn : n ≤ r.writeAvailable
    · obtain ⟨e1, e2⟩ := extend_ok hr n hn
      refine .inl ⟨_, e1, e2, (r.data.drop r.back).take n, ?_, by rw [view_extend hr n hn]; rfl⟩
      simp only [Rep.writeAvailable] at hn
      rw [List.length_take, List.length_drop]; omega
    · exact .inr (.inl ⟨extend_abort n (by omega), _, live_var hv, .inr ⟨_, ho, by simp only [view]; omega⟩⟩)
  · exact .inl hd

theorem meets_unextend (J : Junk) {s : St} (h : WF s) (i n : Nat) : Meets J s (.unextend i n) := by
  rcases hasVar_or_dead s i with ⟨v, hv⟩ | hd
  · refine meets_mutate J h hv _ (·.unextend n) _ rfl (fun s' hc => ⟨rfl, hc⟩) (fun hb => ⟨_, live_var hv, .inl hb⟩) ?_
    intro r g cow hr hnb ho
    have hc := (own_contents ho).1
    simp only [view] at hc
    by_cases hn : n ≤ r.contents.length
    · obtain ⟨r', e1, e2, e3⟩ := unextend_ok hr n hn
      exact .inl ⟨r', e1, e2, e3 g cow⟩
    · exact .inr (.inl ⟨unextend_abort hr n (by omega), _, live_var hv, .inr (by rw [← hc]; omega)⟩)
  · exact .inl hd

theorem meets_poke (J : Junk) {s : St} (h : WF s) (i off : Nat) (bs : List Byte) : Meets J s (.poke i off bs) := by
  rcases hasVar_or_dead s i with ⟨v, hv⟩ | hd
  · refine meets_mutate J h hv _ (fun r => r.put (r.front + off) bs) _ rfl (fun s' hc => ⟨rfl, hc⟩)
      (fun hb => ⟨_, live_var hv, hb⟩) ?_
    intro r g cow hr hnb ho
    by_cases hn : off + bs.length ≤ r.contents.length + r.writeAvailable
    · obtain ⟨r', e1, e2, e3⟩ := poke_ok hr off bs hn
      exact .inl ⟨r', e1, e2, e3 g cow⟩
    · exact .inr (.inr (.inr ⟨_, _, live_var hv, hnb, ho, by simp only [view]; omega⟩))
  · exact .inl (.inl hd)

theorem meets_replace (J : Junk) {s : St} (h : WF s) (i off : Nat) (bs : List Byte) : Meets J s (.replace i off bs) := by
  rcases hasVar_or_dead s i with ⟨v, hv⟩ | hd
  · obtain ⟨r, hr, hok⟩ := h i v hv
    have hview := viewVar_eq hr
    have hl := length_contents hok
    by_cases hn : off + bs.length ≤ r.readAvailable
    · refine meets_mutate J h hv _ (fun r => r.put (r.front + off) bs) _ ?_ (fun s' hc => ⟨rfl, hc⟩)
        (fun hb => ⟨_, live_var hv, .inl hb⟩) ?_
      · simp only [step, replace, getRep_eq hv hr, Res.bind_ok, decide_eq_true hn, Res.require_true, poke]
      · intro r1 g cow hr1 hnb ho
        have hc := (own_contents ho).1
        rw [hview] at hc
        simp only [view] at hc
        obtain ⟨r', e1, e2, e3⟩ := poke_ok hr1 off bs (by rw [hc, hl]; omega)
        exact .inl ⟨r', e1, e2, e3 g cow⟩
    · refine .inr (.inl ⟨⟨_, live_var hv, .inr ?_⟩, ?_⟩)
      · rw [hview]; simp only [view]; omega
      · simp only [step, replace, getRep_eq hv hr, Res.bind_ok, decide_eq_false hn, Res.require_false, Res.bind_abort]
        rfl
  · exact .inl hd

theorem meets_resize (J : Junk) {s : St} (h : WF s) (i n : Nat) : Meets J s (.resize i n) := by
  rcases hasVar_or_dead s i with ⟨v, hv⟩ | hd
  · refine meets_mutate J h hv _ (fun r => Rep.resizeBuffer (J s.seed) r n) _ rfl (fun s' hc => ⟨rfl, hc⟩)
      (fun hb => ⟨_, live_var hv, .inl hb⟩) ?_
    intro r g cow hr hnb ho
    have hc := (own_contents ho).1
    simp only [view] at hc
    by_cases hn : r.contents.length ≤ n
    · obtain ⟨r', e1, e2, e3⟩ := resize_ok hr (J s.seed) n hn
      exact .inl ⟨r', e1, e2, e3 g cow⟩
    · exact .inr (.inl ⟨resize_abort hr _ n (by omega), _, live_var hv, .inr (by rw [← hc]; omega)⟩)
  · exact .inl hd

theorem meets_shift (J : Junk) {s : St} (h : WF s) (i : Nat) : Meets J s (.shift i) := by
  rcases hasVar_or_dead s i with ⟨v, hv⟩ | hd
  · refine meets_mutate J h hv _ (fun r => .ok r.shift) _ rfl (fun s' hc => ⟨rfl, hc⟩)
      (fun hb => ⟨_, live_var hv, hb⟩) ?_
    intro r g cow hr hnb ho
    exact .inl ⟨_, rfl, (shift_ok hr).1, (shift_ok hr).2 g cow⟩
  · exact .inl hd

theorem reset_view (r : Rep) (g : Nat) (cow : Bool) :
    view r.reset g cow = ⟨[], r.data.length, r.data.length, g, cow⟩ := by
  simp [view, Rep.reset, Rep.contents, Rep.readAvailable, Rep.writeAvailable]

theorem reset_ok (r : Rep) : RepOk r.reset := ⟨Nat.le_refl _, Nat.zero_le _⟩

theorem meets_reset (J : Junk) {s : St} (h : WF s) (i : Nat) : Meets J s (.reset i) := by
  rcases hasVar_or_dead s i with ⟨v, hv⟩ | hd
  · refine meets_mutate J h hv _ (fun r => .ok r.reset) _ rfl (fun s' hc => ⟨rfl, hc⟩)
      (fun hb => ⟨_, live_var hv, hb⟩) ?_
    intro r g cow hr hnb ho
    exact .inl ⟨_, rfl, reset_ok r, reset_view r g cow⟩
  · exact .inl hd

theorem meets_purge (J : Junk) {s : St} (h : WF s) (i : Nat) : Meets J s (.purge i) := by
  rcases hasVar_or_dead s i with ⟨v, hv⟩ | hd
  · refine meets_mutate J h hv _ (fun r => .ok r.purge) _ rfl (fun s' hc => ⟨rfl, hc⟩)
      (fun hb => ⟨_, live_var hv, hb⟩) ?_
    intro r g cow hr hnb ho
    exact .inl ⟨_, rfl, new_ok, rfl⟩
  · exact .inl hd

theorem meets_writeStart (J : Junk) {s : St} (h : WF s) (i : Nat) (bs : List Byte) : Meets J s (.writeStart i bs) := by
  rcases hasVar_or_dead s i with ⟨v, hv⟩ | hd
  · refine meets_mutate J h hv _ (fun r => do
      let pos := r.back
      let r ← r.extend bs.length
      r.put pos bs) _ rfl (fun s' hc => ⟨rfl, hc⟩)
      (fun hb => ⟨_, live_var hv, .inl hb⟩) ?_
    intro r g cow hr hnb ho
    by_cases hn : bs.length ≤ r.writeAvailable
    · obtain ⟨r', e1, e2, e3⟩ := writeStart_ok hr bs hn
      exact .inl ⟨r', e1, e2, e3 g cow⟩
    · refine .inr (.inl ⟨?_, _, live_var hv, .inr ⟨_, ho, by simp only [view]; omega⟩⟩)
      simp only [extend_abort (r := r) bs.length (by omega), Res.bind_abort]
  · exact .inl hd

/-- Appending after entering. -/
theorem append_eq (J : Junk) {s s1 : St} {i : Nat} {v1 : Var} {r1 : Rep} (hl : Lone s1 i v1 r1)
    (he : uniqueify J s i = .ok s1) (bs : List Byte) : append J s i bs = append J s1 i bs := by
  simp only [append, makeRoom, he, uniqueify_solo J hl.wf hl.solo]

theorem append_lone (J : Junk) {s : St} {i : Nat} {v : Var} {r : Rep} (h : Lone s i v r) (bs : List Byte) :
    ∃ s' r', append J s i bs = .ok s' ∧ Lone s' i v r' ∧ abs s' = (abs s).set i (some (view r' v.rep v.cow)) ∧
      ∀ g cow, view r' g cow = (view r g cow).add bs := by
  obtain ⟨s1, s', r', e1, e2, e3, e4, _, _, e5⟩ := grow_write_lone J h bs
  exact ⟨s', r', by simp only [append, e1, Res.bind_ok, e2], e3, e4, e5⟩

theorem meets_append (J : Junk) {s : St} (h : WF s) (i : Nat) (bs : List Byte) : Meets J s (.append i bs) := by
  rcases hasVar_or_dead s i with ⟨v, hv⟩ | hd
  · rcases enter J h hv with ⟨hb, he⟩ | ⟨hb, s1, v1, r1, he, hl, ho, ha, _⟩
    · refine .inr (.inl ⟨⟨_, live_var hv, hb⟩, ?_⟩)
      simp only [step, append, makeRoom, he, Res.bind_abort]; rfl
    · obtain ⟨s', r', e1, e2, e3, e4⟩ := append_lone J hl bs
      refine .inr (.inr ⟨s', .unit, ?_, ⟨rfl, _, _, view r' v1.rep v1.cow, live_var hv, ho, by show _ = _; rw [e4]; try rfl, ?_⟩, e2.wf⟩)
      · simp only [step, append_eq J hl he, e1]; rfl
      · rw [e3, ha, List.set_set]
  · exact .inl hd

theorem meets_assign (J : Junk) {s : St} (h : WF s) (i : Nat) (bs : List Byte) : Meets J s (.assign i bs) := by
  rcases hasVar_or_dead s i with ⟨v, hv⟩ | hd
  · rcases enter J h hv with ⟨hb, he⟩ | ⟨hb, s1, v1, r1, he, hl, ho, ha, _⟩
    · refine .inr (.inl ⟨⟨_, live_var hv, hb⟩, ?_⟩)
      simp only [step, assign, mutate, he, Res.bind_abort]; rfl
    · obtain ⟨s2, m1, m2, m3, _⟩ := mutate_lone J hl (fun r => .ok r.reset) rfl (reset_ok r1)
      obtain ⟨s', r', e1, e2, e3, e4⟩ := append_lone J m2 bs
      refine .inr (.inr ⟨s', .unit, ?_, ⟨rfl, _, _, view r' v1.rep v1.cow, live_var hv, ho, by show _ = _; rw [e4]; try rfl, ?_⟩, e2.wf⟩)
      · simp only [step, assign, mutate_eq J s s1 i hl.wf hl.solo he, m1, Res.bind_ok, e1]; rfl
      · rw [e3, m3, ha, List.set_set, List.set_set]
  · exact .inl hd

theorem meets_fill (J : Junk) {s : St} (h : WF s) (i : Nat) (bs : List Byte) (k : Nat) : Meets J s (.fill i bs k) := by
  rcases hasVar_or_dead s i with ⟨v, hv⟩ | hd
  · rcases enter J h hv with ⟨hb, he⟩ | ⟨hb, s1, v1, r1, he, hl, ho, ha, _⟩
    · refine .inr (.inl ⟨⟨_, live_var hv, .inl hb⟩, ?_⟩)
      simp only [step, fill, mutate, he, Res.bind_abort]; rfl
    · by_cases hn : bs.length ≤ r1.writeAvailable
      · obtain ⟨r', e1, e2, e3, e4, e5, e6⟩ := fill_ok hl.ok bs k hn
        obtain ⟨s2, m1, m2, m3, _⟩ := mutate_lone J hl (fun r => r.put r.back bs) e1 e2
        have hst : step J s (.fill i bs k) = quiet (mutate J s2 i (fun r => r.extend k)) := by
          simp only [step, fill, mutate_eq J s s1 i hl.wf hl.solo he, m1, Res.bind_ok]
        by_cases hk : k ≤ r1.writeAvailable
        · obtain ⟨e6, e7, e8⟩ := e6 hk
          obtain ⟨s3, n1, n2, n3, _⟩ := mutate_lone J m2 (fun r => r.extend k) e6 e7
          refine .inr (.inr ⟨s3, .unit, by rw [hst, n1]; rfl, ⟨rfl, _, _, _, live_var hv, ho,
            ⟨r1.data.drop (r1.back + bs.length), ?_, rfl⟩, ?_⟩, n2.wf⟩)
          · simp only [Rep.writeAvailable] at hk hn
            rw [List.length_drop]; omega
          · rw [n3, m3, ha, List.set_set, List.set_set]; congr 2; exact e8 _ _
        · refine .inr (.inl ⟨⟨_, live_var hv, .inr ⟨_, ho, by simp only [view]; omega⟩⟩, ?_⟩)
          rw [hst, mutate_solo J m2.wf m2.solo m2.rep, extend_abort k (by simp only [Rep.writeAvailable, e4, e5] at hk ⊢; omega)]
          rfl
      · exact .inl (.inr ⟨_, _, live_var hv, hb, ho, by simp only [view]; omega⟩)
  · exact .inl (.inl hd)

/-- The body of `append(const ByteBuffer &)` once the target is unique. -/
theorem appendBuf_core (J : Junk) {s : St} {i : Nat} {v : Var} {r src : Rep} (h : Lone s i v r) (rid : Nat)
    (hs : s.heap[rid]? = some src) (hok : RepOk src)
    (hroom : v.rep = rid → src.readAvailable ≤ r.writeAvailable) :
    ∃ s2 s' r', makeRoom J s i src.readAvailable = .ok s2 ∧
      bytesAt s2 rid src.front src.readAvailable = .ok src.contents ∧ writeStart J s2 i src.contents = .ok s' ∧
      Lone s' i v r' ∧ abs s' = (abs s).set i (some (view r' v.rep v.cow)) ∧
      ∀ g cow, view r' g cow = (view r g cow).add src.contents := by
  obtain ⟨s1, s', r', e1, e2, e3, e4, e5, e6, e7⟩ := grow_write_lone J h src.contents
  rw [length_contents hok] at e1 e6
  refine ⟨s1, s', r', e1, ?_, e2, e3, e4, e7⟩
  have hcell : s1.heap[rid]? = some src := by
    by_cases e : v.rep = rid
    · rw [e6 (hroom e)]; exact hs
    · rw [e5 rid (fun e' => e e'.symm)]; exact hs
  have hbd := hok.bd
  have hfb := hok.fb
  simp only [bytesAt, hcell]
  rw [if_pos (by simp only [Rep.readAvailable]; omega)]
  rfl

theorem meets_appendBuf (J : Junk) {s : St} (h : WF s) (i j : Nat) : Meets J s (.appendBuf i j) := by
  rcases hasVar_or_dead s i with ⟨v, hv⟩ | hd
  · rcases hasVar_or_dead s j with ⟨w, hw⟩ | hd
    · obtain ⟨src, hsrc, hsok⟩ := h j w hw
      have hwlt : w.rep < s.heap.length := (List.getElem?_eq_some_iff.1 hsrc).1
      rcases enter J h hv with ⟨hb, he⟩ | ⟨hb, s1, v1, r1, he, hl, ho, ha, _, hold, hns, hsolo⟩
      · refine .inr (.inl ⟨⟨_, live_var hv, hb⟩, ?_⟩)
        simp only [step, appendBuf, getVar_eq hw, getRep_eq hw hsrc, Res.bind_ok, he, Res.bind_abort]; rfl
      · by_cases hbad : r1.writeAvailable < src.readAvailable ∧ v1.rep = w.rep
        · refine .inl (.inr (.inr ?_))
          by_cases hso : Solo s i v
          · have hs1 := hsolo hso
            subst hs1
            have hv1 : v1 = v := by
              have := hl.solo.1
              simp only [HasVar] at this hv
              rw [hv] at this; simpa using this.symm
            subst hv1
            by_cases hij : j = i
            · subst hij
              refine ⟨rfl, _, live_var hv, (solo_iff hv).1 hso, ?_⟩
              have hvw : v1 = w := by
                simp only [HasVar] at hv hw
                rw [hv] at hw; simpa using hw
              subst hvw
              have hrr : r1 = src := by
                have := hl.rep
                rw [hsrc] at this; simpa using this.symm
              subst hrr
              rw [viewVar_eq hsrc]
              simp only [view]
              rw [length_contents hsok]; exact hbad.1
            · exact (hso.2 j w hij hw hbad.2.symm).elim
          · exfalso
            have := hns hso
            omega
        · obtain ⟨s2, s', r', e1, e2, e3, e4, e5, e6⟩ := appendBuf_core J hl w.rep
            (by rw [hold _ hwlt]; exact hsrc) hsok (fun e => by
              by_cases hx : src.readAvailable ≤ r1.writeAvailable
              · exact hx
              · exact (hbad ⟨by omega, e⟩).elim)
          refine .inr (.inr ⟨s', .unit, ?_, ⟨rfl, _, live_var hw, _, _, view r' v1.rep v1.cow, live_var hv, ho, ?_, ?_⟩, e4.wf⟩)
          · simp only [step, appendBuf, getVar_eq hw, getRep_eq hw hsrc, Res.bind_ok, he, getVar_eq hl.solo.1,
              hl.getRep, if_neg hbad, e1, e2, e3]
            rfl
          · rw [e6, viewVar_eq hsrc]; rfl
          · rw [e5, ha, List.set_set]
    · exact .inl (.inr (.inl hd))
  · exact .inl (.inl hd)

theorem meets_assignBuf (J : Junk) {s : St} (h : WF s) (i j : Nat) : Meets J s (.assignBuf i j) := by
  rcases hasVar_or_dead s i with ⟨v, hv⟩ | hd
  · rcases hasVar_or_dead s j with ⟨w, hw⟩ | hd
    · obtain ⟨src, hsrc, hsok⟩ := h j w hw
      have hwlt : w.rep < s.heap.length := (List.getElem?_eq_some_iff.1 hsrc).1
      rcases enter J h hv with ⟨hb, he⟩ | ⟨hb, s1, v1, r1, he, hl, ho, ha, _, hold, hns, hsolo⟩
      · refine .inr (.inl ⟨⟨_, live_var hv, hb⟩, ?_⟩)
        simp only [step, assignBuf, mutate, he, Res.bind_abort]; rfl
      · obtain ⟨s2, m1, m2, m3, m4⟩ := mutate_lone J hl (fun r => .ok r.reset) rfl (reset_ok r1)
        have hstart : step J s (.assignBuf i j) = quiet (appendBuf J s2 i j) := by
          simp only [step, assignBuf, mutate_eq J s s1 i hl.wf hl.solo he, m1, Res.bind_ok]
        by_cases hij : j = i
        · subst hij
          have hz : r1.reset.readAvailable = 0 := rfl
          have hc0 : r1.reset.contents = [] := by simp [Rep.reset, Rep.contents, Rep.readAvailable]
          obtain ⟨s3, s', r', e1, e2, e3, e4, e5, e6⟩ := appendBuf_core J m2 v1.rep m2.rep m2.ok
            (fun _ => by rw [hz]; omega)
          refine .inr (.inr ⟨s', .unit, ?_, ⟨rfl, _, live_var hv, _, _, view r' v1.rep v1.cow, live_var hv, ho, ?_, ?_⟩, e4.wf⟩)
          · rw [hstart]
            have hnb : ¬(r1.reset.writeAvailable < r1.reset.readAvailable ∧ v1.rep = v1.rep) := by
              rw [hz]; omega
            simp only [appendBuf, getVar_eq m2.solo.1, m2.getRep, Res.bind_ok, uniqueify_solo J m2.wf m2.solo,
              if_neg hnb, e1, e2, e3]
            rfl
          · rw [e6, if_pos rfl, hc0, reset_view]; rfl
          · rw [e5, m3, ha, List.set_set, List.set_set]
        · -- the source is another variable: untouched so far
          have hw2 : ∃ w2, HasVar s2 j w2 ∧ viewVar s2.heap w2 = viewVar s.heap w := by
            have hlive : Live (abs s2) j (viewVar s.heap w) := by
              simp only [Live]
              rw [m3, ha, List.set_set, List.getElem?_set_ne (fun e => hij e.symm)]
              exact live_var hw
            obtain ⟨w2, a, b⟩ := (live_iff s2 j _).1 hlive
            exact ⟨w2, a, b.symm⟩
          obtain ⟨w2, hw2, hvw⟩ := hw2
          obtain ⟨src2, hsrc2, hsok2⟩ := m2.wf j w2 hw2
          have hne : v1.rep ≠ w2.rep := fun e => m2.solo.2 j w2 hij hw2 e.symm
          obtain ⟨s3, s', r', e1, e2, e3, e4, e5, e6⟩ := appendBuf_core J m2 w2.rep hsrc2 hsok2 (fun e => (hne e).elim)
          refine .inr (.inr ⟨s', .unit, ?_, ⟨rfl, _, live_var hw, _, _, view r' v1.rep v1.cow, live_var hv, ho, ?_, ?_⟩, e4.wf⟩)
          · rw [hstart]
            have hnb : ¬(r1.reset.writeAvailable < src2.readAvailable ∧ v1.rep = w2.rep) := fun h => hne h.2
            simp only [appendBuf, getVar_eq hw2, getRep_eq hw2 hsrc2, getVar_eq m2.solo.1, m2.getRep, Res.bind_ok,
              uniqueify_solo J m2.wf m2.solo, if_neg hnb, e1, e2, e3]
            rfl
          · rw [e6, if_neg (fun e => hij e.symm), reset_view, ← hvw, viewVar_eq hsrc2]; rfl
          · rw [e5, m3, ha, List.set_set, List.set_set]
    · exact .inl (.inr hd)
  · exact .inl (.inl hd)

theorem meets_forceUnique (J : Junk) {s : St} (h : WF s) (i : Nat) : Meets J s (.forceUnique i) := by
  rcases hasVar_or_dead s i with ⟨v, hv⟩ | hd
  · obtain ⟨s1, v1, r1, he, a1, a2, a3, a4, a5, a6, _⟩ := forceUnique_ok J h hv
    exact .inr (.inr ⟨s1, .unit, by simp only [step, he]; rfl, ⟨rfl, _, _, _, live_var hv, a5, rfl, a6⟩, a1⟩)
  · exact .inl hd

theorem meets_detach (J : Junk) {s : St} (h : WF s) (i : Nat) : Meets J s (.detach i) := by
  rcases hasVar_or_dead s i with ⟨v, hv⟩ | hd
  · obtain ⟨f1, f2, f3, f4, f5, f6⟩ := fresh_abs h hv new_ok
    refine .inr (.inr ⟨_, .unit, by simp only [step, getVar_eq hv, Res.bind_ok]; rfl,
      ⟨rfl, _, s.heap.length, live_var hv, f4, f3⟩, f1⟩)
  · exact .inl hd

theorem wf_vars {s : St} (h : WF s) (vs : List (Option Var)) (hsub : ∀ (i : Nat) (v : Var), vs[i]? = some (some v) → ∃ j, HasVar s j v) :
    WF { s with vars := vs } := by
  intro i v hv
  obtain ⟨j, hj⟩ := hsub i v hv
  exact h j v hj

theorem meets_copy (J : Junk) {s : St} (h : WF s) (i : Nat) : Meets J s (.copy i) := by
  rcases hasVar_or_dead s i with ⟨v, hv⟩ | hd
  · refine .inr (.inr ⟨{ s with vars := s.vars ++ [some v] }, .unit, by simp only [step, getVar_eq hv, Res.bind_ok]; rfl,
      ⟨rfl, _, live_var hv, ?_⟩, ?_⟩)
    · simp [abs]
    · refine wf_vars h _ (fun k w hk => ?_)
      rw [List.getElem?_append] at hk
      split at hk
      · exact ⟨k, hk⟩
      · cases hx : k - s.vars.length with
        | zero => rw [hx] at hk; simp at hk; subst hk; exact ⟨i, hv⟩
        | succ n => rw [hx] at hk; simp at hk
  · exact .inl hd

theorem meets_setTo (J : Junk) {s : St} (h : WF s) (i j : Nat) : Meets J s (.setTo i j) := by
  rcases hasVar_or_dead s i with ⟨v, hv⟩ | hd
  · rcases hasVar_or_dead s j with ⟨w, hw⟩ | hd
    · refine .inr (.inr ⟨{ s with vars := s.vars.set i (some w) }, .unit,
        by simp only [step, getVar_eq hv, getVar_eq hw, Res.bind_ok]; rfl, ⟨rfl, _, live_var hw, ?_⟩, ?_⟩)
      · simp [abs, List.map_set]
      · refine wf_vars h _ (fun k u hk => ?_)
        rw [List.getElem?_set] at hk
        split at hk
        · split at hk
          · simp at hk; subst hk; exact ⟨j, hw⟩
          · simp at hk
        · exact ⟨k, hk⟩
    · exact .inl (.inr hd)
  · exact .inl (.inl hd)

theorem meets_destroy (J : Junk) {s : St} (h : WF s) (i : Nat) : Meets J s (.destroy i) := by
  rcases hasVar_or_dead s i with ⟨v, hv⟩ | hd
  · refine .inr (.inr ⟨{ s with vars := s.vars.set i none }, .unit,
        by simp only [step, getVar_eq hv, Res.bind_ok]; rfl, ⟨rfl, ?_⟩, ?_⟩)
    · simp [abs, List.map_set]
    · refine wf_vars h _ (fun k u hk => ?_)
      rw [List.getElem?_set] at hk
      split at hk
      · split at hk
        · simp at hk
        · simp at hk
      · exact ⟨k, hk⟩
  · exact .inl hd

theorem addVar_ok {s : St} (h : WF s) (cow : Bool) :
    Lone (addVar s cow) s.vars.length ⟨s.heap.length, cow⟩ Rep.new ∧
      abs (addVar s cow) = abs s ++ [some ⟨[], 0, 0, s.heap.length, cow⟩] ∧ Fresh (abs s) s.heap.length := by
  have hlt : ∀ j w, HasVar s j w → w.rep < s.heap.length := by
    intro j w hw
    obtain ⟨r1, h1, _⟩ := h j w hw
    exact (List.getElem?_eq_some_iff.1 h1).1
  have hold : ∀ k, k < s.heap.length → (addVar s cow).heap[k]? = s.heap[k]? := by
    intro k hk
    simp only [addVar]; rw [List.getElem?_append_left hk]
  have hnew : (addVar s cow).heap[s.heap.length]? = some Rep.new := by
    simp only [addVar]; rw [List.getElem?_append_right (Nat.le_refl _)]; simp
  have hvar : ∀ k w, HasVar (addVar s cow) k w → (HasVar s k w ∧ k < s.vars.length) ∨ (k = s.vars.length ∧ w = ⟨s.heap.length, cow⟩) := by
    intro k w hk
    simp only [HasVar, addVar] at hk
    rw [List.getElem?_append] at hk
    split at hk
    · exact .inl ⟨hk, by assumption⟩
    · cases hx : k - s.vars.length with
      | zero => rw [hx] at hk; simp at hk; exact .inr ⟨by omega, hk.symm⟩
      | succ n => rw [hx] at hk; simp at hk
  refine ⟨⟨?_, ⟨?_, ?_⟩, hnew, new_ok⟩, ?_, ?_⟩
  · intro k w hk
    rcases hvar k w hk with ⟨hk', _⟩ | ⟨_, rfl⟩
    · obtain ⟨r1, h1, h2⟩ := h k w hk'
      exact ⟨r1, by rw [hold _ (hlt k w hk')]; exact h1, h2⟩
    · exact ⟨_, hnew, new_ok⟩
  · simp only [HasVar, addVar]; rw [List.getElem?_append_right (Nat.le_refl _)]; simp
  · intro j w hj hw
    rcases hvar j w hw with ⟨hk', _⟩ | ⟨e, _⟩
    · have := hlt j w hk'; simp only; omega
    · exact (hj e).elim
  · have hmap : s.vars.map (fun o => o.map (viewVar (addVar s cow).heap)) = abs s := by
      apply List.map_congr_left
      intro o ho
      cases o with
      | none => rfl
      | some w =>
        obtain ⟨k, hk⟩ := List.getElem?_of_mem ho
        obtain ⟨r1, h1, h2⟩ := h k w hk
        simp only [Option.map_some]
        rw [viewVar_eq h1, viewVar_eq (r := r1)]
        rw [hold _ (hlt k w hk)]; exact h1
    have : abs (addVar s cow) = s.vars.map (fun o => o.map (viewVar (addVar s cow).heap)) ++
        [some (viewVar (addVar s cow).heap ⟨s.heap.length, cow⟩)] := by
      simp only [abs, addVar, List.map_append, List.map_cons, List.map_nil, Option.map_some]
    rw [this, hmap, viewVar_eq hnew]
    rfl
  · intro j b hb
    obtain ⟨w, hw, rfl⟩ := (live_iff s j b).1 hb
    have := hlt j w hw
    simp only [viewVar, view]
    omega

theorem meets_new (J : Junk) {s : St} (h : WF s) (cow : Bool) : Meets J s (.new cow) := by
  obtain ⟨a, b, c⟩ := addVar_ok h cow
  exact .inr (.inr ⟨_, .unit, rfl, ⟨rfl, _, c, b⟩, a.wf⟩)

theorem meets_newFrom (J : Junk) {s : St} (h : WF s) (bs : List Byte) (cow : Bool) : Meets J s (.newFrom bs cow) := by
  obtain ⟨a, b, c⟩ := addVar_ok h cow
  obtain ⟨s', r', e1, e2, e3, e4⟩ := append_lone J a bs
  refine .inr (.inr ⟨s', .unit, by simp only [step, e1]; rfl, ⟨rfl, _, c, ?_⟩, e2.wf⟩)
  rw [e3, b, e4]
  have hl : s.vars.length = (abs s).length := (abs_length s).symm
  rw [hl, List.set_append_right _ _ (Nat.le_refl _)]
  simp only [Nat.sub_self, List.set_cons_zero, view_new]
  congr 3
  unfold Buf.add
  by_cases hz : bs.length ≤ 0
  · have : bs = [] := List.length_eq_zero_iff.1 (by omega)
    subst this; rfl
  · rw [if_neg (by exact hz)]
    simp

theorem meets_fromStream (J : Junk) {s : St} (h : WF s) (i : Nat) (bs : List Byte) (amount : Nat) :
    Meets J s (.fromStream i bs amount) := by
  rcases hasVar_or_dead s i with ⟨v, hv⟩ | hd
  · obtain ⟨r, hr, hok⟩ := h i v hv
    have hview := viewVar_eq hr
    by_cases hz : amount = 0
    · subst hz
      refine .inr (.inr ⟨s, .count 0, ?_, ⟨by simp, _, _, _, live_var hv, .inr ⟨rfl, rfl⟩, by simp, rfl, rfl, ?_⟩, h⟩)
      · have hn : ¬ r.writeAvailable < 0 := Nat.not_lt_zero _
        simp only [step, appendFromStream, streamRoom, getRep_eq hv hr, Res.bind_ok, if_neg hn, Res.pure_eq,
          decide_eq_true (Nat.zero_le r.writeAvailable), Res.require_true, if_true]
        rfl
      · have : (abs s)[i]? = some (some (viewVar s.heap v)) := live_var hv
        obtain ⟨hi, e⟩ := List.getElem?_eq_some_iff.1 this
        rw [← e, List.set_getElem_self]
    · by_cases hroom : r.writeAvailable < amount
      · rcases enter J h hv with ⟨hb, he⟩ | ⟨hb, s1, v1, r1, he, hl, ho, ha, _⟩
        · refine .inr (.inl ⟨⟨_, live_var hv, hb⟩, ?_⟩)
          simp only [step, appendFromStream, streamRoom, getRep_eq hv hr, Res.bind_ok, if_pos hroom, resizeBuffer,
            mutate, he, Res.bind_abort]
          rfl
        · have hc := (own_contents ho).1
          rw [hview] at hc
          simp only [view] at hc
          have hlc := length_contents hok
          have hbd := hok.bd
          have hlen : r1.contents.length ≤ r.data.length - r.writeAvailable + amount := by
            rw [hc, hlc]; simp only [Rep.readAvailable, Rep.writeAvailable]; omega
          obtain ⟨r2, x1, x2, x3⟩ := resize_ok hl.ok (J s.seed) (r.data.length - r.writeAvailable + amount) hlen
          obtain ⟨s2, m1, m2, m3, _⟩ := mutate_lone J hl
            (fun r' => Rep.resizeBuffer (J s.seed) r' (r.data.length - r.writeAvailable + amount)) x1 x2
          obtain ⟨c1, c2, c3⟩ := view_fields x3
          have hav : amount ≤ r2.writeAvailable := by
            rw [c3, hc, hlc]; simp only [Rep.readAvailable, Rep.writeAvailable]; omega
          obtain ⟨s3, r3, y1, y2, y3, y4⟩ := fill_lone J m2 (bs.take amount) (bs.take amount).length
            (by rw [List.length_take]; omega) (Nat.le_refl _)
          obtain ⟨d1, d2, d3⟩ := view_fields y4
          refine .inr (.inr ⟨s3, .count (bs.take amount).length, ?_, ⟨by rw [List.length_take], _, _, view r3 v1.rep v1.cow, live_var hv, .inl ho, ?_, rfl, ?_, ?_⟩, y2.wf⟩)
          · simp only [step, appendFromStream, streamRoom, getRep_eq hv hr, Res.bind_ok, if_pos hroom, resizeBuffer,
              mutate_eq J s s1 i hl.wf hl.solo he, m1, m2.getRep, decide_eq_true hav, Res.require_true, if_neg hz, y1]
            rfl
          · show r3.contents = _
            rw [d1, c1, hc, hview, List.take_length]; rfl
          · exact (own_contents ho).2
          · rw [y3, m3, ha, List.set_set, List.set_set]
      · by_cases hso : Solo s i v
        · have hl : Lone s i v r := ⟨h, hso, hr, hok⟩
          obtain ⟨s3, r3, y1, y2, y3, y4⟩ := fill_lone J hl (bs.take amount) (bs.take amount).length
            (by rw [List.length_take]; omega) (Nat.le_refl _)
          obtain ⟨d1, d2, d3⟩ := view_fields y4
          refine .inr (.inr ⟨s3, .count (bs.take amount).length, ?_, ⟨by rw [List.length_take], _, _, _, live_var hv,
            .inl (.inl ⟨(solo_iff hv).1 hso, rfl⟩), ?_, ?_, ?_, y3⟩, y2.wf⟩)
          · simp only [step, appendFromStream, streamRoom, getRep_eq hv hr, Res.bind_ok, if_neg hroom, Res.pure_eq,
              decide_eq_true (Nat.not_lt.1 hroom), Res.require_true, if_neg hz, y1]
            rfl
          · show r3.contents = _
            rw [d1, hview, List.take_length]; rfl
          · rw [hview]; rfl
          · rw [hview]; rfl
        · have hstart : step J s (.fromStream i bs amount) =
              (counted do
                let s ← fill J s i (bs.take amount) (bs.take amount).length
                pure (s, (bs.take amount).length)) := by
            simp only [step, appendFromStream, streamRoom, getRep_eq hv hr, Res.bind_ok, if_neg hroom, Res.pure_eq,
              decide_eq_true (Nat.not_lt.1 hroom), Res.require_true, if_neg hz]
          rcases enter J h hv with ⟨hb, he⟩ | ⟨hb, s1, v1, r1, he, hl, ho, ha, hcw, _⟩
          · refine .inr (.inl ⟨⟨_, live_var hv, hb⟩, ?_⟩)
            rw [hstart]
            simp only [fill, mutate, he, Res.bind_abort]; rfl
          · by_cases hbs : bs = []
            · subst hbs
              obtain ⟨s3, r3, y1, y2, y3, y4⟩ := fill_lone J hl [] 0 (Nat.zero_le _) (Nat.zero_le _)
              obtain ⟨d1, d2, d3⟩ := view_fields y4
              have hc := (own_contents ho).1
              simp only [view] at hc
              refine .inr (.inr ⟨s3, .count 0, ?_, ⟨by simp, _, _, view r3 v1.rep v1.cow, live_var hv,
                .inl ho, ?_, rfl, (own_contents ho).2, ?_⟩, y2.wf⟩)
              · rw [hstart]
                simp only [fill, List.take_nil, List.length_nil, mutate_eq J s s1 i hl.wf hl.solo he]
                simp only [fill] at y1
                rw [y1]; rfl
              · show r3.contents = _
                rw [d1, hc]; simp
              · rw [y3, ha, List.set_set]
            · refine .inl (.inr ⟨_, live_var hv, ?_, hb, hbs, by omega, ?_⟩)
              · exact Classical.byContradiction (fun hn => hso ((solo_iff hv).2 hn))
              · rw [hview]; simp only [view]; omega
  · exact .inl (.inl hd)

theorem meets_entireStream (J : Junk) {s : St} (h : WF s) (i : Nat) (bs : List Byte) (mx : Nat) :
    Meets J s (.entireStream i bs mx) := by
  rcases hasVar_or_dead s i with ⟨v, hv⟩ | hd
  · obtain ⟨r, hr, hok⟩ := h i v hv
    have hview := viewVar_eq hr
    have hbd := hok.bd
    have hlc := length_contents hok
    -- what remains once the variable is lone
    have finish : ∀ (s1 : St) (v1 : Var) (r1 : Rep), Lone s1 i v1 r1 → r1.contents = r.contents → v1.cow = v.cow →
        (0 < r1.data.length ∨ r1.data.length = mx) → ∀ fuel M, r1.data.length ≤ M → mx ≤ M → (M = mx ∨ M = r1.data.length) →
        2 * (M - r1.data.length) + 1 < fuel →
        (∀ b2 : Buf, abs s1 = (abs s1).set i (some (view r1 v1.rep v1.cow)) ∧ (abs s1).set i (some b2) = (abs s).set i (some b2)) →
        ∃ s' r' k, entireLoop J i M fuel s1 bs 0 = .ok (s', k) ∧ Lone s' i v1 r' ∧
          abs s' = (abs s).set i (some (view r' v1.rep v1.cow)) ∧ r'.contents = r.contents ++ bs.take k ∧ k ≤ bs.length ∧
          (k = bs.length ∨ r'.writeAvailable = 0 ∧ mx ≤ r'.data.length) := by
      intro s1 v1 r1 hl hc hcow hpos fuel M hM1 hM2 hM3 hfuel hset
      obtain ⟨s', r', k, d1, d2, d3, d4, d5, d6⟩ := entireLoop_lone J i v1 M fuel s1 r1 bs 0 hl hM1 (by omega) (by
        split <;> omega)
      refine ⟨s', r', k, by rw [d1, Nat.zero_add], d2, by rw [d3]; exact (hset _).2, by rw [d4, hc], d5, ?_⟩
      rcases d6 with d6 | d6
      · exact .inl d6
      · exact .inr ⟨d6.1, by omega⟩
    by_cases hz : r.data.length = 0
    · rcases enter J h hv with ⟨hb, he⟩ | ⟨hb, s1, v1, r1, he, hl, ho, ha, hcw, _⟩
      · refine .inr (.inl ⟨⟨_, live_var hv, hb⟩, ?_⟩)
        simp only [step, appendEntireStream, entireRoom, getRep_eq hv hr, Res.bind_ok, if_pos hz, resizeBuffer, mutate, he,
          Res.bind_abort]
        rfl
      · have hc := (own_contents ho).1
        rw [hview] at hc
        simp only [view] at hc
        have hc0 : r1.contents.length = 0 := by
          rw [hc, hlc]; simp only [Rep.readAvailable]; omega
        obtain ⟨r2, x1, x2, x3⟩ := resize_ok hl.ok (J s.seed) (min 1024 mx) (by omega)
        obtain ⟨s2, m1, m2, m3, _⟩ := mutate_lone J hl (fun r' => Rep.resizeBuffer (J s.seed) r' (min 1024 mx)) x1 x2
        obtain ⟨c1, c2, c3⟩ := view_fields x3
        obtain ⟨s', r', k, d1, d2, d3, d4, d5, d6⟩ := finish s2 v1 r2 m2 (by rw [c1, hc]) hcw (by omega)
          (2 * max r2.data.length mx + 2) (max r2.data.length mx) (by omega) (by omega) (by omega) (by omega)
          (fun b2 => ⟨m2.abs_self, by rw [m3, ha, List.set_set, List.set_set]⟩)
        refine .inr (.inr ⟨s', .count k, ?_, ⟨k, rfl, _, _, view r' v1.rep v1.cow, live_var hv, .inl ho, ?_, rfl, ?_, d3, d5, d6⟩, d2.wf⟩)
        · simp only [step, appendEntireStream, entireRoom, getRep_eq hv hr, Res.bind_ok, if_pos hz, resizeBuffer,
            mutate_eq J s s1 i hl.wf hl.solo he, m1, m2.getRep, d1]
          rfl
        · show r'.contents = _
          rw [d4, hview]; rfl
        · exact (own_contents ho).2
    · have hstart : step J s (.entireStream i bs mx) =
          counted (entireLoop J i (max r.data.length mx) (2 * max r.data.length mx + 2) s bs 0) := by
        simp only [step, appendEntireStream, entireRoom, getRep_eq hv hr, Res.bind_ok, if_neg hz, Res.pure_eq]
      by_cases hso : Solo s i v
      · have hl : Lone s i v r := ⟨h, hso, hr, hok⟩
        obtain ⟨s', r', k, d1, d2, d3, d4, d5, d6⟩ := finish s v r hl rfl rfl (by omega)
          (2 * max r.data.length mx + 2) (max r.data.length mx) (by omega) (by omega) (by omega) (by omega)
          (fun b2 => ⟨hl.abs_self, rfl⟩)
        refine .inr (.inr ⟨s', .count k, by rw [hstart, d1]; rfl, ⟨k, rfl, _, _, _, live_var hv,
          .inl (.inl ⟨(solo_iff hv).1 hso, rfl⟩), ?_, ?_, ?_, d3, d5, d6⟩, d2.wf⟩)
        · show r'.contents = _
          rw [d4, hview]; rfl
        · rw [hview]; rfl
        · rw [hview]; rfl
      · have hsh : Shared (abs s) i (viewVar s.heap v) :=
          Classical.byContradiction (fun hn => hso ((solo_iff hv).2 hn))
        by_cases hav : r.writeAvailable > 0
        · rcases enter J h hv with ⟨hb, he⟩ | ⟨hb, _⟩
          · refine .inr (.inl ⟨⟨_, live_var hv, hb⟩, ?_⟩)
            have hu : ¬unique s v = true := fun hu => hso ((unique_iff hv).1 hu)
            rw [hstart]
            unfold entireLoop
            simp only [getRep_eq hv hr, Res.bind_ok, getVar_eq hv, if_pos hav, if_neg hu, he, Res.bind_abort]
            rfl
          · exact .inl (.inr ⟨_, live_var hv, hsh, hb, by rw [hview]; exact hav⟩)
        · by_cases hlt : r.data.length < max r.data.length mx
          · rcases enter J h hv with ⟨hb, he⟩ | ⟨hb, s1, v1, r1, he, hl, ho, ha, hcw, _⟩
            · refine .inr (.inl ⟨⟨_, live_var hv, hb⟩, ?_⟩)
              rw [hstart]
              unfold entireLoop
              simp only [getRep_eq hv hr, Res.bind_ok, getVar_eq hv, if_neg hav, if_pos hlt, resizeBuffer, mutate, he,
                Res.bind_abort]
              rfl
            · have hc := (own_contents ho).1
              rw [hview] at hc
              simp only [view] at hc
              obtain ⟨r2, x1, x2, x3⟩ := resize_ok hl.ok (J s.seed) (min (r.data.length * 2) (max r.data.length mx)) (by
                rw [hc, hlc]; simp only [Rep.readAvailable]; omega)
              obtain ⟨s2, m1, m2, m3, _⟩ := mutate_lone J hl
                (fun r' => Rep.resizeBuffer (J s.seed) r' (min (r.data.length * 2) (max r.data.length mx))) x1 x2
              obtain ⟨c1, c2, c3⟩ := view_fields x3
              obtain ⟨s', r', k, d1, d2, d3, d4, d5, d6⟩ := finish s2 v1 r2 m2 (by rw [c1, hc]) hcw (by omega)
                (2 * max r.data.length mx + 1) (max r.data.length mx) (by omega) (by omega) (by omega) (by omega)
                (fun b2 => ⟨m2.abs_self, by rw [m3, ha, List.set_set, List.set_set]⟩)
              refine .inr (.inr ⟨s', .count k, ?_, ⟨k, rfl, _, _, view r' v1.rep v1.cow, live_var hv, .inl ho, ?_, rfl, ?_, d3, d5, d6⟩, d2.wf⟩)
              · rw [hstart]
                unfold entireLoop
                simp only [getRep_eq hv hr, Res.bind_ok, getVar_eq hv, if_neg hav, if_pos hlt, resizeBuffer,
                  mutate_eq J s s1 i hl.wf hl.solo he, m1, d1]
                rfl
              · show r'.contents = _
                rw [d4, hview]; rfl
              · exact (own_contents ho).2
          · refine .inr (.inr ⟨s, .count 0, ?_, ⟨0, rfl, _, _, _, live_var hv, .inr ⟨rfl, rfl⟩, by simp, rfl, rfl, ?_,
              Nat.zero_le _, .inr ⟨?_, ?_⟩⟩, h⟩)
            · rw [hstart]
              unfold entireLoop
              simp only [getRep_eq hv hr, Res.bind_ok, getVar_eq hv, if_neg hav, if_neg hlt]
              rw [decide_eq_true (by omega)]
              rfl
            · have : (abs s)[i]? = some (some (viewVar s.heap v)) := live_var hv
              obtain ⟨hi, e⟩ := List.getElem?_eq_some_iff.1 this
              rw [← e, List.set_getElem_self]
            · rw [hview]; simp only [view]; omega
            · rw [hview]; simp only [view]; omega
  · exact .inl (.inl hd)

theorem meets_query (J : Junk) {s : St} (h : WF s) (op : Op) (hop : (∃ i, op = .asString i) ∨ (∃ i, op = .sizes i) ∨ ∃ i j, op = .eq i j) :
    Meets J s op := by
  rcases hop with ⟨i, rfl⟩ | ⟨i, rfl⟩ | ⟨i, j, rfl⟩
  · rcases hasVar_or_dead s i with ⟨v, hv⟩ | hd
    · obtain ⟨r, hr, hok⟩ := h i v hv
      exact .inr (.inr ⟨s, .bytes r.contents, by simp only [step, getRep_eq hv hr, Res.bind_ok]; rfl,
        ⟨rfl, _, live_var hv, by rw [viewVar_eq hr]; rfl⟩, h⟩)
    · exact .inl hd
  · rcases hasVar_or_dead s i with ⟨v, hv⟩ | hd
    · obtain ⟨r, hr, hok⟩ := h i v hv
      exact .inr (.inr ⟨s, .sizes r.data.length r.readAvailable r.writeAvailable, by simp only [step, getRep_eq hv hr, Res.bind_ok]; rfl,
        ⟨rfl, _, live_var hv, by rw [viewVar_eq hr]; simp only [view, length_contents hok]⟩, h⟩)
    · exact .inl hd
  · rcases hasVar_or_dead s i with ⟨v, hv⟩ | hd
    · rcases hasVar_or_dead s j with ⟨w, hw⟩ | hd
      · obtain ⟨r, hr, hok⟩ := h i v hv
        obtain ⟨q, hq, hqok⟩ := h j w hw
        have he : eq s i j = .ok (decide (r.contents = q.contents)) := by
          simp only [eq, getVar_eq hv, getVar_eq hw, getRep_eq hv hr, getRep_eq hw hq, Res.bind_ok]
          by_cases h1 : r.readAvailable ≠ q.readAvailable
          · rw [if_pos h1]
            have : r.contents ≠ q.contents := fun e => h1 (by rw [← length_contents hok, e, length_contents hqok])
            rw [decide_eq_false this]; rfl
          · rw [if_neg h1]
            by_cases h2 : v.rep = w.rep
            · rw [if_pos h2]
              rw [h2, hq] at hr
              simp at hr
              rw [hr, decide_eq_true rfl]; rfl
            · rw [if_neg h2]; rfl
        exact .inr (.inr ⟨s, .bool (decide (r.contents = q.contents)), by simp only [step, he, Res.bind_ok]; rfl,
          ⟨rfl, _, _, live_var hv, live_var hw, by rw [viewVar_eq hr, viewVar_eq hq]; rfl⟩, h⟩)
      · exact .inl (.inr hd)
    · exact .inl (.inl hd)

theorem meets (J : Junk) {s : St} (h : WF s) (op : Op) : Meets J s op := by
  cases op with
  | new cow => exact meets_new J h cow
  | newFrom bs cow => exact meets_newFrom J h bs cow
  | copy i => exact meets_copy J h i
  | setTo i j => exact meets_setTo J h i j
  | destroy i => exact meets_destroy J h i
  | consume i n => exact meets_consume J h i n
  | append i bs => exact meets_append J h i bs
  | appendBuf i j => exact meets_appendBuf J h i j
  | writeStart i bs => exact meets_writeStart J h i bs
  | fill i bs k => exact meets_fill J h i bs k
  | extend i n => exact meets_extend J h i n
  | unextend i n => exact meets_unextend J h i n
  | poke i off bs => exact meets_poke J h i off bs
  | replace i off bs => exact meets_replace J h i off bs
  | resize i n => exact meets_resize J h i n
  | shift i => exact meets_shift J h i
  | reset i => exact meets_reset J h i
  | purge i => exact meets_purge J h i
  | detach i => exact meets_detach J h i
  | assign i bs => exact meets_assign J h i bs
  | assignBuf i j => exact meets_assignBuf J h i j
  | forceUnique i => exact meets_forceUnique J h i
  | fromStream i bs amount => exact meets_fromStream J h i bs amount
  | entireStream i bs mx => exact meets_entireStream J h i bs mx
  | asString i => exact meets_query J h _ (.inl ⟨i, rfl⟩)
  | sizes i => exact meets_query J h _ (.inr (.inl ⟨i, rfl⟩))
  | eq i j => exact meets_query J h _ (.inr (.inr ⟨i, j, rfl⟩))

theorem wf_init : WF init := by intro i v hv; simp [init, HasVar] at hv

theorem bb_run (J : Junk) : ∀ (ops : List Op) (s : St), WF s → BRun (abs s) ops (run J s ops)
  | [], _, _ => rfl
  | op :: ops, s, h => by
    rcases meets J h op with hm | ⟨ha, hr⟩ | ⟨s', o, he, hst, hw⟩
    · exact .inl hm
    · exact .inr (.inl ⟨ha, by simp only [run, hr, Res.bind_abort]⟩)
    · refine .inr (.inr ⟨o, abs s', run J s' ops, hst, bb_run J ops s' hw, ?_⟩)
      simp only [run, he, Res.bind_ok]
      cases run J s' ops <;> rfl

end Verif.BB
