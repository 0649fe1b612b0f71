import Verif.BB.RepLemmas

namespace Verif.BB

def viewVar (h : List Rep) (v : Var) : Buf := view (h.getD v.rep Rep.new) v.rep v.cow

def abs (s : St) : Bufs := s.vars.map (fun o => o.map (viewVar s.heap))

abbrev HasVar (s : St) (i : Nat) (v : Var) : Prop := s.vars[i]? = some (some v)

def WF (s : St) : Prop := ∀ i v, HasVar s i v → ∃ r, s.heap[v.rep]? = some r ∧ RepOk r

theorem live_iff (s : St) (i : Nat) (b : Buf) : Live (abs s) i b ↔ ∃ v, HasVar s i v ∧ b = viewVar s.heap v := by
  simp only [Live, abs, List.getElem?_map, HasVar]
  cases h : s.vars[i]? with
  | none => simp
  | some o =>
    cases o with
    | none => simp
    | some v => simp [eq_comm]

theorem dead_iff (s : St) (i : Nat) : Dead (abs s) i ↔ ∀ v, ¬HasVar s i v := by
  simp only [Dead, live_iff]
  grind

theorem getVar_eq {s : St} {i : Nat} {v : Var} (h : HasVar s i v) : getVar s i = .ok v := by
  simp only [getVar]; rw [h]

theorem getRep_eq {s : St} {i : Nat} {v : Var} {r : Rep} (h : HasVar s i v) (hr : s.heap[v.rep]? = some r) :
    getRep s i = .ok r := by
  simp only [getRep, getVar_eq h, Res.bind_ok, hr]

theorem viewVar_eq {h : List Rep} {v : Var} {r : Rep} (hr : h[v.rep]? = some r) : viewVar h v = view r v.rep v.cow := by
  simp only [viewVar, List.getD_eq_getElem?_getD, hr, Option.getD_some]

/-- The only live variable naming its representation. -/
def Solo (s : St) (i : Nat) (v : Var) : Prop :=
  HasVar s i v ∧ ∀ j w, j ≠ i → HasVar s j w → w.rep ≠ v.rep

theorem filter_one {β : Type} (p : β → Bool) : ∀ (l : List β) (i : Nat) (x : β), l[i]? = some x → p x = true →
    ((l.filter p).length = 1 ↔ ∀ j y, j ≠ i → l[j]? = some y → p y = false)
  | [], i, x, h, _ => by simp at h
  | a :: l, 0, x, h, hp => by
    simp only [List.getElem?_cons_zero, Option.some.injEq] at h
    subst h
    rw [List.filter_cons_of_pos hp, List.length_cons]
    constructor
    · intro hl j y hj hy
      have he : l.filter p = [] := List.length_eq_zero_iff.1 (by omega)
      cases j with
      | zero => omega
      | succ j =>
        rw [List.getElem?_cons_succ] at hy
        have := List.filter_eq_nil_iff.1 he y (List.mem_of_getElem? hy)
        simpa using this
    · intro h
      have : l.filter p = [] := by
        rw [List.filter_eq_nil_iff]
        intro y hy
        obtain ⟨j, hj⟩ := List.getElem?_of_mem hy
        have := h (j + 1) y (by omega) (by rw [List.getElem?_cons_succ]; exact hj)
        simp [this]
      rw [this]; rfl
  | a :: l, i + 1, x, h, hp => by
    rw [List.getElem?_cons_succ] at h
    have ih := filter_one p l i x h hp
    cases ha : p a with
    | true =>
      rw [List.filter_cons_of_pos ha, List.length_cons]
      constructor
      · intro hl
        have he : l.filter p = [] := List.length_eq_zero_iff.1 (by omega)
        have := List.filter_eq_nil_iff.1 he x (List.mem_of_getElem? h)
        exact (this hp).elim
      · intro hall
        have := hall 0 a (by omega) rfl
        rw [ha] at this; cases this
    | false =>
      rw [List.filter_cons_of_neg (by simp [ha]), ih]
      constructor
      · intro h2 j y hj hy
        cases j with
        | zero => simp at hy; rw [← hy]; exact ha
        | succ j => exact h2 j y (by omega) (by rwa [List.getElem?_cons_succ] at hy)
      · intro h2 j y hj hy
        exact h2 (j + 1) y (by omega) (by rwa [List.getElem?_cons_succ])

theorem unique_iff {s : St} {i : Nat} {v : Var} (h : HasVar s i v) : unique s v = true ↔ Solo s i v := by
  simp only [unique, beq_iff_eq]
  rw [filter_one _ s.vars i (some v) h (by simp)]
  rw [Solo, and_iff_right h]
  constructor
  · intro hh j w hj hw e
    have := hh j (some w) hj hw
    simp [e] at this
  · intro hh j y hj hy
    cases y with
    | none => rfl
    | some w => simpa using hh j w hj hy

theorem solo_iff {s : St} {i : Nat} {v : Var} (h : HasVar s i v) :
    Solo s i v ↔ ¬Shared (abs s) i (viewVar s.heap v) := by
  rw [Solo, and_iff_right h]
  simp only [Shared, live_iff]
  constructor
  · rintro hh ⟨j, b', hj, ⟨w, hw, rfl⟩, e⟩
    exact hh j w hj hw e
  · intro hh j w hj hw e
    exact hh ⟨j, _, hj, ⟨w, hw, rfl⟩, e⟩

theorem abs_length (s : St) : (abs s).length = s.vars.length := by simp [abs]

theorem hasVar_lt {s : St} {i : Nat} {v : Var} (h : HasVar s i v) : i < s.vars.length := by
  obtain ⟨h, _⟩ := List.getElem?_eq_some_iff.1 h
  exact h

/-- Changing the representation of a lone variable changes only that variable. -/
theorem store_abs {s : St} {i : Nat} {v : Var} {r : Rep} (h : WF s) (hs : Solo s i v) (hr : RepOk r) :
    WF (store s v r) ∧ Solo (store s v r) i v ∧ abs (store s v r) = (abs s).set i (some (view r v.rep v.cow)) ∧
      (store s v r).heap[v.rep]? = some r := by
  obtain ⟨r0, hr0, _⟩ := h i v hs.1
  have hlt : v.rep < s.heap.length := (List.getElem?_eq_some_iff.1 hr0).1
  have hget : (store s v r).heap[v.rep]? = some r := by
    simp only [store]; rw [List.getElem?_set_self hlt]
  refine ⟨?_, ⟨hs.1, hs.2⟩, ?_, hget⟩
  · intro j w hw
    have hw' : HasVar s j w := hw
    by_cases e : w.rep = v.rep
    · exact ⟨r, by rw [e]; exact hget, hr⟩
    · obtain ⟨r1, h1, h2⟩ := h j w hw'
      refine ⟨r1, ?_, h2⟩
      simp only [store]; rw [List.getElem?_set_ne (fun e' => e e'.symm)]; exact h1
  · apply List.ext_getElem?
    intro j
    simp only [abs, List.getElem?_set, List.getElem?_map, List.length_map]
    have hi := hasVar_lt hs.1
    by_cases e : i = j
    · subst e
      have : (store s v r).vars[i]? = some (some v) := hs.1
      rw [if_pos rfl, if_pos hi, this]
      simp only [Option.map_some, viewVar_eq hget]
    · rw [if_neg e]
      have : (store s v r).vars = s.vars := rfl
      rw [this]
      cases hj : s.vars[j]? with
      | none => rfl
      | some o =>
        cases o with
        | none => rfl
        | some w =>
          obtain ⟨r1, h1, h2⟩ := h j w hj
          have hne := hs.2 j w (fun e' => e e'.symm) hj
          simp only [Option.map_some]
          rw [viewVar_eq h1, viewVar_eq (r := r1)]
          simp only [store]; rw [List.getElem?_set_ne (fun e' => hne e'.symm)]; exact h1

/-- Pointing a variable at a new representation. -/
theorem fresh_abs {s : St} {i : Nat} {v : Var} {r : Rep} (h : WF s) (hv : HasVar s i v) (hr : RepOk r) :
    WF (fresh s i v r) ∧ Solo (fresh s i v r) i { v with rep := s.heap.length } ∧
      abs (fresh s i v r) = (abs s).set i (some (view r s.heap.length v.cow)) ∧
      Fresh (abs s) s.heap.length ∧ (fresh s i v r).heap[s.heap.length]? = some r ∧
      (∀ k, k < s.heap.length → (fresh s i v r).heap[k]? = s.heap[k]?) := by
  have hi := hasVar_lt hv
  have hold : ∀ k, k < s.heap.length → (fresh s i v r).heap[k]? = s.heap[k]? := by
    intro k hk
    simp only [fresh]; rw [List.getElem?_append_left hk]
  have hnew : (fresh s i v r).heap[s.heap.length]? = some r := by
    simp only [fresh]; rw [List.getElem?_append_right (Nat.le_refl _)]; simp
  have hlt : ∀ j w, HasVar s j w → w.rep < s.heap.length := by
    intro j w hw
    obtain ⟨r1, h1, _⟩ := h j w hw
    exact (List.getElem?_eq_some_iff.1 h1).1
  have hvi : HasVar (fresh s i v r) i { v with rep := s.heap.length } := by
    simp only [HasVar, fresh]; rw [List.getElem?_set_self hi]
  have hvj : ∀ j, j ≠ i → (fresh s i v r).vars[j]? = s.vars[j]? := by
    intro j hj
    simp only [fresh]; rw [List.getElem?_set_ne (fun e => hj e.symm)]
  refine ⟨?_, ⟨hvi, ?_⟩, ?_, ?_, hnew, hold⟩
  · intro j w hw
    by_cases e : j = i
    · subst e
      have : w = { v with rep := s.heap.length } := by
        simp only [HasVar] at hw hvi; rw [hvi] at hw; simpa using hw.symm
      subst this
      exact ⟨r, hnew, hr⟩
    · have hw' : HasVar s j w := by simp only [HasVar] at hw ⊢; rw [← hvj j e]; exact hw
      obtain ⟨r1, h1, h2⟩ := h j w hw'
      exact ⟨r1, by rw [hold _ (hlt j w hw')]; exact h1, h2⟩
  · intro j w hj hw e
    have hw' : HasVar s j w := by simp only [HasVar] at hw ⊢; rw [← hvj j hj]; exact hw
    have := hlt j w hw'
    simp only at e
    omega
  · apply List.ext_getElem?
    intro j
    have e1 : (abs (fresh s i v r))[j]? = ((fresh s i v r).vars[j]?).map (fun o => o.map (viewVar (fresh s i v r).heap)) := by
      simp only [abs, List.getElem?_map]
    rw [e1]
    by_cases e : j = i
    · subst e
      rw [List.getElem?_set_self (by rw [abs_length]; exact hi), hvi]
      simp only [Option.map_some]
      rw [viewVar_eq (r := r) hnew]
    · rw [List.getElem?_set_ne (fun e' => e e'.symm), hvj j e]
      simp only [abs, List.getElem?_map]
      cases hj : s.vars[j]? with
      | none => rfl
      | some o =>
        cases o with
        | none => rfl
        | some w =>
          obtain ⟨r1, h1, h2⟩ := h j w hj
          simp only [Option.map_some]
          rw [viewVar_eq h1, viewVar_eq (r := r1)]
          rw [hold _ (hlt j w hj)]; exact h1
  · intro j b hb
    obtain ⟨w, hw, rfl⟩ := (live_iff s j b).1 hb
    have := hlt j w hw
    simp only [viewVar, view]
    omega

/-- Making a variable unique. -/
theorem forceUnique_ok (J : Junk) {s : St} {i : Nat} {v : Var} (h : WF s) (hv : HasVar s i v) :
    ∃ s1 v1 r1, forceUnique J s i = .ok s1 ∧ WF s1 ∧ Solo s1 i v1 ∧ s1.heap[v1.rep]? = some r1 ∧ RepOk r1 ∧
      Own (abs s) i (viewVar s.heap v) (view r1 v1.rep v1.cow) ∧
      abs s1 = (abs s).set i (some (view r1 v1.rep v1.cow)) ∧ v1.cow = v.cow ∧
      (∀ k, k < s.heap.length → s1.heap[k]? = s.heap[k]?) ∧ (¬Solo s i v → v1.rep = s.heap.length) ∧
      (Solo s i v → s1 = s) := by
  obtain ⟨r, hr, hok⟩ := h i v hv
  have hview := viewVar_eq hr
  unfold forceUnique
  rw [getVar_eq hv, Res.bind_ok, getRep_eq hv hr, Res.bind_ok]
  by_cases hu : unique s v = true
  · rw [if_pos hu]
    have hs := (unique_iff hv).1 hu
    refine ⟨s, v, r, rfl, h, hs, hr, hok, ?_, ?_, rfl, fun _ _ => rfl, fun hn => (hn hs).elim, fun _ => rfl⟩
    · rw [hview]
      exact .inl ⟨by rw [← hview]; exact (solo_iff hv).1 hs, rfl⟩
    · rw [← hview]
      have : (abs s)[i]? = some (some (viewVar s.heap v)) := (live_iff s i _).2 ⟨v, hv, rfl⟩
      obtain ⟨hi, e⟩ := List.getElem?_eq_some_iff.1 this
      rw [← e, List.set_getElem_self]
  · rw [if_neg hu]
    have hns : ¬Solo s i v := fun hs => hu ((unique_iff hv).2 hs)
    obtain ⟨n, n1, n2, c1, c2, c3, c4, c5⟩ := clone_ok hok (J s.seed)
    rw [c1, Res.bind_ok]
    simp only []
    rw [c2, Res.bind_ok, c3, Res.bind_ok]
    obtain ⟨f1, f2, f3, f4, f5, f6⟩ := fresh_abs h hv c4
    refine ⟨_, _, n2, rfl, f1, f2, f5, c4, ?_, f3, rfl, f6, fun _ => rfl, fun hs => (hns hs).elim⟩
    refine .inr ⟨?_, s.heap.length, f4, ?_⟩
    · exact Classical.byContradiction (fun hn => hns ((solo_iff hv).2 hn))
    · rw [c5, hview]; rfl

theorem uniqueify_ok (J : Junk) {s : St} {i : Nat} {v : Var} (h : WF s) (hv : HasVar s i v) :
    (Blocked (abs s) i (viewVar s.heap v) ∧ uniqueify J s i = .abort) ∨
    (¬Blocked (abs s) i (viewVar s.heap v) ∧
    ∃ s1 v1 r1, uniqueify J s i = .ok s1 ∧ WF s1 ∧ Solo s1 i v1 ∧ s1.heap[v1.rep]? = some r1 ∧ RepOk r1 ∧
      Own (abs s) i (viewVar s.heap v) (view r1 v1.rep v1.cow) ∧
      abs s1 = (abs s).set i (some (view r1 v1.rep v1.cow)) ∧ v1.cow = v.cow ∧
      (∀ k, k < s.heap.length → s1.heap[k]? = s.heap[k]?) ∧ (¬Solo s i v → v1.rep = s.heap.length) ∧
      (Solo s i v → s1 = s)) := by
  obtain ⟨r, hr, hok⟩ := h i v hv
  have hview := viewVar_eq hr
  unfold uniqueify
  rw [getVar_eq hv, Res.bind_ok, getRep_eq hv hr, Res.bind_ok]
  have hf := forceUnique_ok J h hv
  by_cases hu : unique s v = true
  · rw [if_pos hu]
    have hs := (unique_iff hv).1 hu
    refine .inr ⟨fun hb => ((solo_iff hv).1 hs) hb.1, ?_⟩
    obtain ⟨s1, v1, r1, e1, e2⟩ := hf
    have hs1 : s1 = s := e2.2.2.2.2.2.2.2.2.2 hs
    subst hs1
    exact ⟨_, v1, r1, rfl, e2⟩
  · rw [if_neg hu]
    have hns : ¬Solo s i v := fun hs => hu ((unique_iff hv).2 hs)
    have hsh : Shared (abs s) i (viewVar s.heap v) :=
      Classical.byContradiction (fun hn => hns ((solo_iff hv).2 hn))
    cases hreq : (decide (r.data.length ≤ 0) || v.cow) with
    | false =>
      refine .inl ⟨⟨hsh, ?_, ?_⟩, by rw [Res.require_false, Res.bind_abort]⟩
      · rw [hview]; simp only [view]
        simp only [Bool.or_eq_false_iff, decide_eq_false_iff_not] at hreq; omega
      · simp only [Bool.or_eq_false_iff] at hreq; exact hreq.2
    | true =>
      rw [Res.require_true, Res.bind_ok]
      refine .inr ⟨?_, hf⟩
      rintro ⟨_, hb1, hb2⟩
      rw [hview] at hb1
      simp only [view] at hb1
      have hc : v.cow = false := hb2
      rw [hc] at hreq
      simp only [Bool.or_false, decide_eq_true_eq] at hreq
      omega

/-- A second call on a variable already made unique. -/
theorem uniqueify_solo (J : Junk) {s : St} {i : Nat} {v : Var} (h : WF s) (hs : Solo s i v) : uniqueify J s i = .ok s := by
  obtain ⟨r, hr, hok⟩ := h i v hs.1
  unfold uniqueify
  rw [getVar_eq hs.1, Res.bind_ok, getRep_eq hs.1 hr, Res.bind_ok, if_pos ((unique_iff hs.1).2 hs)]
  rfl

theorem mutate_solo (J : Junk) {s : St} {i : Nat} {v : Var} {r : Rep} (h : WF s) (hs : Solo s i v)
    (hr : s.heap[v.rep]? = some r) (f : Rep → Res Rep) :
    mutate J s i f = (f r).bind (fun r' => .ok (store s v r')) := by
  unfold mutate
  rw [uniqueify_solo J h hs, Res.bind_ok, getVar_eq hs.1, Res.bind_ok, getRep_eq hs.1 hr, Res.bind_ok]
  rfl

theorem mutate_eq (J : Junk) (s s1 : St) (i : Nat) {v1 : Var} (h : WF s1) (hs : Solo s1 i v1)
    (he : uniqueify J s i = .ok s1) (f : Rep → Res Rep) : mutate J s i f = mutate J s1 i f := by
  unfold mutate
  rw [he, uniqueify_solo J h hs]

/-- The shape of every mutating call. -/
theorem mutate_ok (J : Junk) {s : St} {i : Nat} {v : Var} (h : WF s) (hv : HasVar s i v) (f : Rep → Res Rep) :
    (Blocked (abs s) i (viewVar s.heap v) ∧ mutate J s i f = .abort) ∨
    (¬Blocked (abs s) i (viewVar s.heap v) ∧
    ∃ s1 v1 r1, uniqueify J s i = .ok s1 ∧ WF s1 ∧ Solo s1 i v1 ∧ s1.heap[v1.rep]? = some r1 ∧ RepOk r1 ∧
      Own (abs s) i (viewVar s.heap v) (view r1 v1.rep v1.cow) ∧
      abs s1 = (abs s).set i (some (view r1 v1.rep v1.cow)) ∧ v1.cow = v.cow ∧
      mutate J s i f = (f r1).bind (fun r' => .ok (store s1 v1 r'))) := by
  rcases uniqueify_ok J h hv with ⟨hb, he⟩ | ⟨hb, s1, v1, r1, he, a1, a2, a3, a4, a5, a6, a7, a8, a9, a10⟩
  · refine .inl ⟨hb, ?_⟩
    unfold mutate
    rw [he, Res.bind_abort]
  · exact .inr ⟨hb, s1, v1, r1, he, a1, a2, a3, a4, a5, a6, a7,
      (mutate_eq J s s1 i a1 a2 he f).trans (mutate_solo J a1 a2 a3 f)⟩

/-- A mutating call whose effect on the representation is known. -/
theorem mutate_changes (J : Junk) {s : St} {i : Nat} {v : Var} (h : WF s) (hv : HasVar s i v) (f : Rep → Res Rep)
    (F : Buf → Buf → Prop)
    (hf : ∀ r g cow, RepOk r → Own (abs s) i (viewVar s.heap v) (view r g cow) →
      ∃ r', f r = .ok r' ∧ RepOk r' ∧ F (view r g cow) (view r' g cow)) :
    (Blocked (abs s) i (viewVar s.heap v) ∧ mutate J s i f = .abort) ∨
    ∃ s', mutate J s i f = .ok s' ∧ WF s' ∧ Changes (abs s) i (abs s') F := by
  rcases mutate_ok J h hv f with hb | ⟨_, s1, v1, r1, he, a1, a2, a3, a4, a5, a6, a7, a8⟩
  · exact .inl hb
  · obtain ⟨r', f1, f2, f3⟩ := hf r1 v1.rep v1.cow a4 a5
    obtain ⟨b1, b2, b3, b4⟩ := store_abs a1 a2 f2
    refine .inr ⟨store s1 v1 r', by rw [a8, f1]; rfl, b1, ?_⟩
    refine ⟨_, _, _, (live_iff s i _).2 ⟨v, hv, rfl⟩, a5, f3, ?_⟩
    rw [b3, a6, List.set_set]

end Verif.BB
