import Verif.BB.Steps

namespace Verif.BB

theorem getVar_dead {s : St} {i : Nat} (h : Dead (abs s) i) : getVar s i = .ub := by
  rw [dead_iff] at h
  unfold getVar
  split
  · rename_i v hv
    exact (h v hv).elim
  · rfl

theorem getRep_dead {s : St} {i : Nat} (h : Dead (abs s) i) : getRep s i = .ub := by
  simp only [getRep, getVar_dead h, Res.bind_ub]

theorem uniqueify_dead (J : Junk) {s : St} {i : Nat} (h : Dead (abs s) i) : uniqueify J s i = .ub := by
  simp only [uniqueify, getVar_dead h, Res.bind_ub]

theorem mutate_dead (J : Junk) {s : St} {i : Nat} (h : Dead (abs s) i) (f : Rep → Res Rep) : mutate J s i f = .ub := by
  simp only [mutate, uniqueify_dead J h, Res.bind_ub]

/-- A call that writes outside the data. -/
theorem mutate_ub (J : Junk) {s : St} {i : Nat} {v : Var} (h : WF s) (hv : HasVar s i v) (f : Rep → Res Rep)
    (hb : ¬Blocked (abs s) i (viewVar s.heap v))
    (hf : ∀ r g cow, RepOk r → Own (abs s) i (viewVar s.heap v) (view r g cow) → f r = .ub) : mutate J s i f = .ub := by
  rcases mutate_ok J h hv f with ⟨hb', _⟩ | ⟨hb, s1, v1, r1, he, a1, a2, a3, a4, a5, a6, a7, a8⟩
  · exact (hb hb').elim
  · rw [a8, hf r1 v1.rep v1.cow a4 a5]; rfl

theorem own_unique {s : Bufs} {i : Nat} {b b1 b2 : Buf} (h1 : Own s i b b1) (h2 : Own s i b b2) :
    b1.contents = b2.contents ∧ b1.avail = b2.avail ∧ b1.size = b2.size := by
  rcases h1 with ⟨a, rfl⟩ | ⟨a, g, _, rfl⟩ <;> rcases h2 with ⟨c, rfl⟩ | ⟨c, g', _, rfl⟩
  · exact ⟨rfl, rfl, rfl⟩
  · exact (a c).elim
  · exact (c a).elim
  · exact ⟨rfl, rfl, rfl⟩

theorem ub_ne {α : Type} {r : Res α} (h : r = .ub) : ∀ p, r ≠ .ok p := by intro p e; rw [h] at e; cases e

theorem misuse_not_ok (J : Junk) {s : St} (h : WF s) (op : Op) (hm : BMisuse (abs s) op) : ∀ p, step J s op ≠ .ok p := by
  cases op with
  | new cow => exact hm.elim
  | newFrom bs cow => exact hm.elim
  | copy i => exact ub_ne (by simp only [step, getVar_dead hm, Res.bind_ub]; rfl)
  | setTo i j =>
    rcases hm with hm | hm
    · exact ub_ne (by simp only [step, getVar_dead hm, Res.bind_ub]; rfl)
    · rcases hasVar_or_dead s i with ⟨v, hv⟩ | hd
      · exact ub_ne (by simp only [step, getVar_eq hv, Res.bind_ok, getVar_dead hm, Res.bind_ub]; rfl)
      · exact ub_ne (by simp only [step, getVar_dead hd, Res.bind_ub]; rfl)
  | destroy i => exact ub_ne (by simp only [step, getVar_dead hm, Res.bind_ub]; rfl)
  | consume i n =>
    rcases hm with hm | ⟨b, hl, hb, hn⟩
    · exact ub_ne (by simp only [step, mutate_dead J hm]; rfl)
    · obtain ⟨v, hv, rfl⟩ := (live_iff s i b).1 hl
      refine ub_ne ?_
      rw [show step J s (.consume i n) = quiet (mutate J s i (·.consume n)) from rfl, mutate_ub J h hv _ hb]
      · rfl
      · intro r g cow hr ho
        have hc := (own_contents ho).1
        simp only [view] at hc
        rw [Rep.consume, if_neg]
        rw [← length_contents hr, hc]; omega
  | append i bs => exact ub_ne (by simp only [step, append, makeRoom, uniqueify_dead J hm, Res.bind_ub]; rfl)
  | appendBuf i j =>
    rcases hasVar_or_dead s j with ⟨w, hw⟩ | hdj
    · obtain ⟨src, hsrc, hsok⟩ := h j w hw
      rcases hm with hm | hm | ⟨rfl, b, hl, hsh, hav⟩
      · exact ub_ne (by simp only [step, appendBuf, getVar_eq hw, getRep_eq hw hsrc, Res.bind_ok, uniqueify_dead J hm,
          Res.bind_ub]; rfl)
      · exact ((dead_iff s j).1 hm w hw).elim
      · obtain ⟨v, hv, rfl⟩ := (live_iff s i b).1 hl
        have hvw : v = w := by simp only [HasVar] at hv hw; rw [hv] at hw; simpa using hw
        subst hvw
        have hso := (solo_iff hv).2 hsh
        rw [viewVar_eq hsrc] at hav
        simp only [view] at hav
        rw [length_contents hsok] at hav
        exact ub_ne (by simp only [step, appendBuf, getVar_eq hw, getRep_eq hw hsrc, Res.bind_ok,
          uniqueify_solo J h hso, and_true, if_pos hav]; rfl)
    · exact ub_ne (by simp only [step, appendBuf, getVar_dead hdj, Res.bind_ub]; rfl)
  | writeStart i bs => exact ub_ne (by simp only [step, writeStart, mutate_dead J hm]; rfl)
  | fill i bs k =>
    rcases hm with hm | ⟨b, b1, hl, hb, ho1, hn⟩
    · exact ub_ne (by simp only [step, fill, mutate_dead J hm, Res.bind_ub]; rfl)
    · obtain ⟨v, hv, rfl⟩ := (live_iff s i b).1 hl
      refine ub_ne ?_
      rw [step, fill, mutate_ub J h hv _ hb, Res.bind_ub]
      · rfl
      · intro r g cow hr ho
        have hu := (own_unique ho1 ho).2.1
        have hbd := hr.bd
        simp only [view, Rep.writeAvailable] at hu
        exact put_ub _ _ (by omega)
  | extend i n => exact ub_ne (by simp only [step, mutate_dead J hm]; rfl)
  | unextend i n => exact ub_ne (by simp only [step, mutate_dead J hm]; rfl)
  | poke i off bs =>
    rcases hm with hm | ⟨b, b1, hl, hb, ho1, hn⟩
    · exact ub_ne (by simp only [step, poke, mutate_dead J hm]; rfl)
    · obtain ⟨v, hv, rfl⟩ := (live_iff s i b).1 hl
      refine ub_ne ?_
      rw [step, poke, mutate_ub J h hv _ hb]
      · rfl
      · intro r g cow hr ho
        have hu := own_unique ho1 ho
        have hbd := hr.bd
        have hfb := hr.fb
        simp only [view, Rep.writeAvailable] at hu
        rw [hu.1, hu.2.1, length_contents hr] at hn
        simp only [Rep.readAvailable] at hn
        exact put_ub _ _ (by omega)
  | replace i off bs => exact ub_ne (by simp only [step, replace, getRep_dead hm, Res.bind_ub]; rfl)
  | resize i n => exact ub_ne (by simp only [step, resizeBuffer, mutate_dead J hm]; rfl)
  | shift i => exact ub_ne (by simp only [step, mutate_dead J hm]; rfl)
  | reset i => exact ub_ne (by simp only [step, mutate_dead J hm]; rfl)
  | purge i => exact ub_ne (by simp only [step, mutate_dead J hm]; rfl)
  | detach i => exact ub_ne (by simp only [step, getVar_dead hm, Res.bind_ub]; rfl)
  | assign i bs => exact ub_ne (by simp only [step, assign, mutate_dead J hm, Res.bind_ub]; rfl)
  | assignBuf i j =>
    rcases hm with hm | hm
    · exact ub_ne (by simp only [step, assignBuf, mutate_dead J hm, Res.bind_ub]; rfl)
    · rcases hasVar_or_dead s i with ⟨v, hv⟩ | hd
      · rcases enter J h hv with ⟨hb, he⟩ | ⟨hb, s1, v1, r1, he, hl, ho, ha, _⟩
        · intro p e
          simp only [step, assignBuf, mutate, he, Res.bind_abort] at e
          cases e
        · obtain ⟨s2, m1, m2, m3, m4⟩ := mutate_lone J hl (fun r => .ok r.reset) rfl (reset_ok r1)
          have hij : j ≠ i := fun e => (dead_iff s j).1 hm v (e ▸ hv)
          have hd2 : Dead (abs s2) j := by
            intro b hb
            apply hm b
            simp only [Live] at hb ⊢
            rwa [m3, ha, List.set_set, List.getElem?_set_ne (fun e => hij e.symm)] at hb
          exact ub_ne (by simp only [step, assignBuf, mutate_eq J s s1 i hl.wf hl.solo he, m1, Res.bind_ok, appendBuf,
            getVar_dead hd2, Res.bind_ub]; rfl)
      · exact ub_ne (by simp only [step, assignBuf, mutate_dead J hd, Res.bind_ub]; rfl)
  | forceUnique i => exact ub_ne (by simp only [step, forceUnique, getVar_dead hm, Res.bind_ub]; rfl)
  | fromStream i bs amount =>
    rcases hm with hm | ⟨b, hl, hsh, hb, hbs, hpos, hroom⟩
    · exact ub_ne (by simp only [step, appendFromStream, streamRoom, getRep_dead hm, Res.bind_ub]; rfl)
    · obtain ⟨v, hv, rfl⟩ := (live_iff s i b).1 hl
      obtain ⟨r, hr, hok⟩ := h i v hv
      rw [viewVar_eq hr] at hroom
      simp only [view] at hroom
      have hz : ¬amount = 0 := by omega
      refine ub_ne ?_
      have hfill : fill J s i (bs.take amount) (bs.take amount).length = .ub := by
        rw [fill, mutate_ub J h hv _ hb, Res.bind_ub]
        intro r1 g cow hr1 ho
        have hlen : 0 < (bs.take amount).length := by
          rw [List.length_take]
          have := List.length_pos_iff.2 hbs
          omega
        rcases ho with ⟨hns, _⟩ | ⟨_, g', _, e⟩
        · exact (hns hsh).elim
        · simp only [view, Buf.mk.injEq, Rep.writeAvailable] at e
          exact put_ub _ _ (by omega)
      simp only [step, appendFromStream, streamRoom, getRep_eq hv hr, Res.bind_ok, if_neg (Nat.not_lt.2 hroom), Res.pure_eq,
        decide_eq_true hroom, Res.require_true, if_neg hz, hfill, Res.bind_ub]
      rfl
  | entireStream i bs mx =>
    rcases hm with hm | ⟨b, hl, hsh, hb, hpos⟩
    · exact ub_ne (by simp only [step, appendEntireStream, entireRoom, getRep_dead hm, Res.bind_ub]; rfl)
    · obtain ⟨v, hv, rfl⟩ := (live_iff s i b).1 hl
      obtain ⟨r, hr, hok⟩ := h i v hv
      rw [viewVar_eq hr] at hpos
      simp only [view] at hpos
      have hz : ¬r.data.length = 0 := by simp only [Rep.writeAvailable] at hpos; omega
      have hu : ¬unique s v = true := fun hu => (solo_iff hv).1 ((unique_iff hv).1 hu) hsh
      rcases enter J h hv with ⟨hb', _⟩ | ⟨_, s1, v1, r1, he, _⟩
      · exact (hb hb').elim
      · refine ub_ne ?_
        simp only [step, appendEntireStream, entireRoom, getRep_eq hv hr, Res.bind_ok, if_neg hz, Res.pure_eq]
        unfold entireLoop
        simp only [getRep_eq hv hr, Res.bind_ok, getVar_eq hv, if_pos (show r.writeAvailable > 0 from hpos), if_neg hu, he]
        rfl
  | asString i => exact ub_ne (by simp only [step, getRep_dead hm, Res.bind_ub])
  | sizes i => exact ub_ne (by simp only [step, getRep_dead hm, Res.bind_ub])
  | eq i j =>
    rcases hm with hm | hm
    · exact ub_ne (by simp only [step, eq, getVar_dead hm, Res.bind_ub])
    · rcases hasVar_or_dead s i with ⟨v, hv⟩ | hd
      · exact ub_ne (by simp only [step, eq, getVar_eq hv, Res.bind_ok, getVar_dead hm, Res.bind_ub])
      · exact ub_ne (by simp only [step, eq, getVar_dead hd, Res.bind_ub])

/-- A completed call did what the specification says. -/
theorem step_done (J : Junk) {s s' : St} (h : WF s) {op : Op} {o : Out} (he : step J s op = .ok (s', o)) :
    BStep (abs s) op o (abs s') ∧ WF s' := by
  rcases meets J h op with hm | ⟨_, ha⟩ | ⟨s2, o2, h2, h3, h4⟩
  · exact (misuse_not_ok J h op hm _ he).elim
  · rw [ha] at he; cases he
  · rw [he] at h2; cases h2; exact ⟨h3, h4⟩

/-- The state a history leads to. -/
def after (J : Junk) : St → List Op → Res St
  | s, [] => .ok s
  | s, op :: ops => do
    let p ← step J s op
    after J p.1 ops

theorem after_wf (J : Junk) : ∀ (ops : List Op) (s s' : St), WF s → after J s ops = .ok s' → WF s'
  | [], s, s', h, he => by cases he; exact h
  | op :: ops, s, s', h, he => by
    simp only [after] at he
    cases hs : step J s op with
    | ok p => rw [hs, Res.bind_ok] at he; exact after_wf J ops p.1 s' (step_done J h hs).2 he
    | abort => rw [hs] at he; cases he
    | ub => rw [hs] at he; cases he

end Verif.BB
