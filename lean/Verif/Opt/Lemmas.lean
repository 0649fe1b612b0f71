import Verif.Opt.Spec

/-! # Lemmas about program options -/

namespace Verif.Opt
open Verif Verif.Str Spec

variable {α : Type}

theorem longName_spec (n : Str) : Long n (longName n) := by
  unfold longName Long
  induction n with
  | nil => simp
  | cons c n ih =>
    by_cases hc : c = 44
    · subst hc; simp
    · rw [List.takeWhile_cons_of_pos (by simp [hc])]
      obtain ⟨h1, h2⟩ := ih
      refine ⟨?_, ?_⟩
      · rw [List.mem_cons, not_or]
        exact ⟨fun h => hc h.symm, h1⟩
      · rcases h2 with h2 | ⟨r, h2⟩
        · left; rw [← h2]
        · right; exact ⟨r, by simpa using h2⟩

theorem Long.unique {n a b : Str} (ha : Long n a) (hb : Long n b) : a = b := by
  obtain ⟨a1, a2⟩ := ha
  obtain ⟨b1, b2⟩ := hb
  have key : ∀ (a b : Str), (44 : Byte) ∉ a → (44 : Byte) ∉ b → ∀ x y : Str, (x = [] ∨ ∃ r, x = 44 :: r) → (y = [] ∨ ∃ r, y = 44 :: r) → a ++ x = b ++ y → a = b := by
    intro a
    induction a with
    | nil =>
      intro b _ hb x y hx hy h
      cases b with
      | nil => rfl
      | cons c b =>
        rcases hx with rfl | ⟨r, rfl⟩
        · simp at h
        · simp at h; simp [← h.1] at hb
    | cons c a ih =>
      intro b ha hb x y hx hy h
      cases b with
      | nil =>
        rcases hy with rfl | ⟨r, rfl⟩
        · simp at h
        · simp at h; simp [h.1] at ha
      | cons d b =>
        simp at h ha hb
        rw [h.1, ih b ha.2 hb.2 x y hx hy h.2]
  refine key a b a1 b1 (n.drop a.length) (n.drop b.length) ?_ ?_ ?_
  · rcases a2 with rfl | ⟨r, rfl⟩
    · simp
    · right; exact ⟨r, by simp⟩
  · rcases b2 with rfl | ⟨r, rfl⟩
    · simp
    · right; exact ⟨r, by simp⟩
  · rcases a2 with rfl | ⟨r, rfl⟩ <;> rcases b2 with h | ⟨r', h⟩
    · simp [← h]
    · simp; rw [h]; simp
    · rw [← h]; simp
    · rw [h]; simp; rw [← h]; simp

theorem lookup_snoc (n k : Str) (v : α) : ∀ m : List (Str × α), (m ++ [(k, v)]).lookup n = (m.lookup n).or (if k = n then some v else none) := by
  intro m
  induction m with
  | nil =>
    by_cases h : k = n
    · subst h; simp
    · have : (n == k) = false := by simp; exact fun e => h e.symm
      simp [List.lookup, this, h]
  | cons x m ih =>
    obtain ⟨a, b⟩ := x
    simp only [List.cons_append, List.lookup]
    split
    · simp
    · exact ih

/-- One pass: recognised names are moved into the map. -/
theorem pass_lookup (names : List Str) (n : Str) : ∀ (items : List (Item α)) (m m' : List (Str × α)) (r : List (Item α)),
    pass names items m = .ok (m', r) →
    (names.count n ≠ 0 → m'.lookup n = (m.lookup n).or (valueOf n items) ∧ valueOf n r = none) ∧
    (names.count n = 0 → m'.lookup n = m.lookup n ∧ valueOf n r = valueOf n items) := by
  intro items
  induction items with
  | nil =>
    intro m m' r h
    simp only [pass, Res.ok.injEq, Prod.mk.injEq] at h
    obtain ⟨rfl, rfl⟩ := h
    simp [valueOf]
  | cons i items ih =>
    intro m m' r h
    cases i with
    | other t =>
      simp only [pass] at h
      obtain ⟨x, hx, h⟩ := Res.bind_eq_ok.1 h
      simp only [Res.pure_eq, Res.ok.injEq, Prod.mk.injEq] at h
      obtain ⟨rfl, rfl⟩ := h
      have := ih m x.1 x.2 hx
      simpa [valueOf] using this
    | opt k v =>
      simp only [pass] at h
      split at h
      · next hk =>
        obtain ⟨x, hx, h⟩ := Res.bind_eq_ok.1 h
        simp only [Res.pure_eq, Res.ok.injEq, Prod.mk.injEq] at h
        obtain ⟨rfl, rfl⟩ := h
        have := ih m x.1 x.2 hx
        simp only [valueOf]
        refine ⟨fun hn => ?_, fun hn => ?_⟩
        · have hne : k ≠ n := by rintro rfl; exact hn hk
          simpa [hne] using this.1 hn
        · by_cases hne : k = n
          · exact ⟨(this.2 hn).1, by simp [hne]⟩
          · exact ⟨(this.2 hn).1, by simp [hne, (this.2 hn).2]⟩
      · next hk =>
        split at h
        · simp at h
        · split at h
          · simp at h
          · next hl =>
            have := ih _ m' r h
            simp only [valueOf]
            rw [lookup_snoc] at this
            refine ⟨fun hn => ?_, fun hn => ?_⟩
            · obtain ⟨h1, h2⟩ := this.1 hn
              refine ⟨?_, h2⟩
              rw [h1]
              by_cases hne : k = n
              · subst hne; simp at hl; simp
              · simp [hne]
            · have hne : k ≠ n := by rintro rfl; exact hk hn
              simpa [hne] using this.2 hn

/-- A parse: what is registered is found. -/
theorem passes_lookup {vis hid : List Str} {n : Str} (hn : n ∈ vis ∨ n ∈ hid) {items r1 r2 : List (Item α)} {m1 m2 : List (Str × α)}
    (h1 : pass vis items [] = .ok (m1, r1)) (h2 : pass hid r1 m1 = .ok (m2, r2)) : m2.lookup n = valueOf n items := by
  have a := pass_lookup vis n items _ _ _ h1
  have b := pass_lookup hid n r1 _ _ _ h2
  by_cases hv : vis.count n = 0
  · have hh : hid.count n ≠ 0 := by
      rcases hn with h | h
      · exact absurd (List.count_eq_zero.1 hv) (by simp [h])
      · intro h0; exact absurd (List.count_eq_zero.1 h0) (by simp [h])
    rw [(b.1 hh).1, (a.2 hv).1, (a.2 hv).2]
    simp
  · obtain ⟨a1, a2⟩ := a.1 hv
    by_cases hh : hid.count n = 0
    · rw [(b.2 hh).1, a1]; simp
    · rw [(b.1 hh).1, a1, a2]; simp

/-! ## The invariant -/

structure Inv (s : St α) : Prop where
  acts : ∀ n i, (n, i) ∈ s.actions → ∃ o, s.opts[i]? = some o ∧ o.name = n ∧ (longName n ∈ s.visible ∨ longName n ∈ s.hidden)
  reg : ∀ (i : Nat) (o : Entry α), s.opts[i]? = some o → i ∈ s.pending ∨ (o.name, i) ∈ s.actions
  names : ∀ (i : Nat) (o : Entry α), s.opts[i]? = some o → o.name.head? ≠ some 44

theorem doInit_ok {s s' : St α} {i : Nat} (h : doInit s i = .ok s') : s'.opts = s.opts ∧ s'.pending = s.pending ∧
    ∃ o, s.opts[i]? = some o ∧ s'.actions = s.actions ++ [(o.name, i)] ∧
      ((s'.visible = s.visible ++ [longName o.name] ∧ s'.hidden = s.hidden) ∨ (s'.visible = s.visible ∧ s'.hidden = s.hidden ++ [longName o.name])) := by
  unfold doInit at h
  split at h
  · simp at h
  · next o ho =>
    split at h
    · simp at h
    · split at h
      · simp only [Res.ok.injEq] at h; subst h; exact ⟨rfl, rfl, o, ho, rfl, .inr ⟨rfl, rfl⟩⟩
      · simp only [Res.ok.injEq] at h; subst h; exact ⟨rfl, rfl, o, ho, rfl, .inl ⟨rfl, rfl⟩⟩

theorem doInits_ok : ∀ (is : List Nat) {s s' : St α}, doInits s is = .ok s' →
    (∀ n i, (n, i) ∈ s.actions → ∃ o, s.opts[i]? = some o ∧ o.name = n ∧ (longName n ∈ s.visible ∨ longName n ∈ s.hidden)) →
    s'.opts = s.opts ∧ s'.pending = s.pending ∧
    (∀ n i, (n, i) ∈ s'.actions → ∃ o, s'.opts[i]? = some o ∧ o.name = n ∧ (longName n ∈ s'.visible ∨ longName n ∈ s'.hidden)) ∧
    (∀ x ∈ s.actions, x ∈ s'.actions) ∧ (∀ i ∈ is, ∃ o, s.opts[i]? = some o ∧ (o.name, i) ∈ s'.actions) := by
  intro is
  induction is with
  | nil =>
    intro s s' h ha
    simp only [doInits, Res.ok.injEq] at h
    subst h
    exact ⟨rfl, rfl, ha, fun _ h => h, by simp⟩
  | cons i is ih =>
    intro s s' h ha
    simp only [doInits] at h
    obtain ⟨s1, h1, h⟩ := Res.bind_eq_ok.1 h
    obtain ⟨e1, e2, o, ho, e3, e4⟩ := doInit_ok h1
    obtain ⟨f1, f2, f3, f4, f5⟩ := ih h (by
      intro n j hj
      rw [e3, List.mem_append] at hj
      rcases hj with hj | hj
      · obtain ⟨o', a, b, c⟩ := ha n j hj
        refine ⟨o', by rw [e1]; exact a, b, ?_⟩
        rcases e4 with ⟨v, w⟩ | ⟨v, w⟩ <;> rw [v, w] <;> simp only [List.mem_append] <;> grind
      · simp only [List.mem_singleton, Prod.mk.injEq] at hj
        obtain ⟨rfl, rfl⟩ := hj
        refine ⟨o, by rw [e1]; exact ho, rfl, ?_⟩
        rcases e4 with ⟨v, w⟩ | ⟨v, w⟩ <;> rw [v, w] <;> simp)
    refine ⟨f1.trans e1, f2.trans e2, f3, ?_, ?_⟩
    · intro x hx
      exact f4 x (by rw [e3]; simp [hx])
    · intro j hj
      rcases List.mem_cons.1 hj with rfl | hj
      · exact ⟨o, ho, f4 _ (by rw [e3]; simp)⟩
      · rw [e1] at f5
        exact f5 j hj

/-- After the pending options are registered nothing is pending, and the objects are as before. -/
theorem runInits_ok {s s' : St α} (hi : Inv s) (h : runInits s = .ok s') : Inv s' ∧ s'.opts = s.opts ∧ s'.pending = [] := by
  unfold runInits at h
  obtain ⟨s1, h1, h⟩ := Res.bind_eq_ok.1 h
  simp only [Res.pure_eq, Res.ok.injEq] at h
  subst h
  obtain ⟨f1, f2, f3, f4, f5⟩ := doInits_ok _ h1 hi.acts
  refine ⟨⟨f3, ?_, ?_⟩, f1, rfl⟩
  · intro i o ho
    right
    have ho' : s.opts[i]? = some o := by rw [← f1]; exact ho
    rcases hi.reg i o ho' with hp | ha
    · obtain ⟨o', h1, h2⟩ := f5 i hp
      rw [ho'] at h1
      simp only [Option.some.injEq] at h1
      rw [h1]; exact h2
    · exact f4 _ ha
  · intro i o ho
    exact hi.names i o (by rw [← f1]; exact ho)

/-- `process` never stops at a name when none starts with a comma, and gives every registered object the value of its name. -/
theorem process_ok (m : List (Str × α)) : ∀ (as : List (Str × Nat)) (s : St α),
    (∀ n i, (n, i) ∈ as → ∃ o, s.opts[i]? = some o ∧ o.name = n ∧ n.head? ≠ some 44) →
    (process m as s).1 ≠ .abort ∧ ∀ s', process m as s = (.ok (), s') →
      s'.pending = s.pending ∧ s'.actions = s.actions ∧ s'.visible = s.visible ∧ s'.hidden = s.hidden ∧
      s'.opts.length = s.opts.length ∧
      ∀ (i : Nat) (o : Entry α), s.opts[i]? = some o → s'.opts[i]? = some { o with saved := if i ∈ as.map (·.2) then (m.lookup (longName o.name)).or o.saved else o.saved } := by
  intro as
  induction as with
  | nil =>
    intro s _
    refine ⟨by simp [process], ?_⟩
    intro s' h
    simp only [process, Prod.mk.injEq, true_and] at h
    subst h
    simp
  | cons a as ih =>
    obtain ⟨n, i⟩ := a
    intro s ha
    obtain ⟨o, ho, hn, hc⟩ := ha n i (by simp)
    have hil : i < s.opts.length := (List.getElem?_eq_some_iff.1 ho).1
    simp only [process, if_neg hc]
    by_cases hal : o.alive = true
    · obtain ⟨s1, hs1, e1, e2, e3, e4, e5⟩ : ∃ s1, save s i (m.lookup (longName n)) = .ok s1 ∧ s1.pending = s.pending ∧ s1.actions = s.actions ∧
          s1.visible = s.visible ∧ s1.hidden = s.hidden ∧ s1.opts = s.opts.set i { o with saved := (m.lookup (longName n)).or o.saved } := by
        unfold save
        rw [ho]
        simp only [hal, Bool.not_true, Bool.false_eq_true, if_false]
        cases hl : m.lookup (longName n) with
        | none =>
          refine ⟨s, rfl, rfl, rfl, rfl, rfl, ?_⟩
          simp only [Option.none_or]
          obtain ⟨hlt, he⟩ := List.getElem?_eq_some_iff.1 ho
          apply List.ext_getElem?
          intro j
          rw [List.getElem?_set]
          by_cases hij : i = j
          · subst hij; simp [hil, ← hal, he]
          · simp [hij]
        | some v => exact ⟨_, rfl, rfl, rfl, rfl, rfl, by simp⟩
      rw [hs1]
      simp only
      have hget : ∀ j, s1.opts[j]? = if i = j then some { o with saved := (m.lookup (longName n)).or o.saved } else s.opts[j]? := by
        intro j
        rw [e5, List.getElem?_set]
        by_cases hij : i = j
        · subst hij; simp [hil]
        · simp [hij]
      obtain ⟨k1, k2⟩ := ih s1 (by
        intro n' j hj
        obtain ⟨o', h1, h2, h3⟩ := ha n' j (by simp [hj])
        rw [hget]
        by_cases hij : i = j
        · subst hij
          rw [ho] at h1
          simp only [Option.some.injEq] at h1
          subst h1
          exact ⟨{ o with saved := (m.lookup (longName n)).or o.saved }, by rw [if_pos rfl], h2, h3⟩
        · exact ⟨o', by simp [hij, h1], h2, h3⟩)
      refine ⟨k1, ?_⟩
      intro s' hs'
      obtain ⟨l1, l2, l3, l4, l5, l6⟩ := k2 s' hs'
      refine ⟨l1.trans e1, l2.trans e2, l3.trans e3, l4.trans e4, ?_, ?_⟩
      · rw [l5, e5]; simp
      · intro j oj hj
        by_cases hij : i = j
        · subst hij
          rw [ho] at hj
          simp only [Option.some.injEq] at hj
          subst hj
          have := l6 i { o with saved := (m.lookup (longName n)).or o.saved } (by rw [hget, if_pos rfl])
          rw [this]
          simp only [List.map_cons, List.mem_cons, true_or, if_true, ← hn]
          congr 2
          split <;> simp [hn]
          cases m.lookup (longName n) <;> simp
        · have := l6 j oj (by rw [hget]; simp [hij, hj])
          rw [this]
          have e : j ∈ (n, i).2 :: as.map (·.2) ↔ j ∈ as.map (·.2) := by
            simp only [List.mem_cons]
            constructor
            · rintro (h | h)
              · exact absurd h.symm hij
              · exact h
            · exact Or.inr
          simp only [List.map_cons, e]
    · have : save s i (m.lookup (longName n)) = .ub := by
        unfold save
        rw [ho]
        simp [hal]
      rw [this]
      simp

/-- Processing all registered options with a map that has the values of the items. -/
theorem process_items {s : St α} (hi : Inv s) (hp : s.pending = []) {m : List (Str × α)} {items : List (Item α)}
    (hm : ∀ n, n ∈ s.visible ∨ n ∈ s.hidden → m.lookup n = valueOf n items) :
    (process m s.actions s).1 ≠ .abort ∧ ∀ s', process m s.actions s = (.ok (), s') → Inv s' ∧ s'.opts.length = s.opts.length ∧
      ∀ (i : Nat) (e : Entry α), s.opts[i]? = some e → ∃ e', s'.opts[i]? = some e' ∧ e'.name = e.name ∧ e'.dflt = e.dflt ∧
        e'.saved = (valueOf (longName e.name) items).or e.saved := by
  obtain ⟨h1, h2⟩ := process_ok m s.actions s (by
    intro n i ha
    obtain ⟨o, ho, hn, _⟩ := hi.acts n i ha
    exact ⟨o, ho, hn, hn ▸ hi.names i o ho⟩)
  refine ⟨h1, ?_⟩
  intro s' hs'
  obtain ⟨e1, e2, e3, e4, e5, e6⟩ := h2 s' hs'
  have back : ∀ (i : Nat) (e' : Entry α), s'.opts[i]? = some e' → ∃ e, s.opts[i]? = some e ∧ e'.name = e.name := by
    intro i e' he'
    have hlt : i < s'.opts.length := (List.getElem?_eq_some_iff.1 he').1
    rw [e5] at hlt
    refine ⟨s.opts[i], List.getElem?_eq_getElem hlt, ?_⟩
    have := e6 i _ (List.getElem?_eq_getElem hlt)
    rw [he'] at this
    simp only [Option.some.injEq] at this
    rw [this]
  refine ⟨⟨?_, ?_, ?_⟩, e5, ?_⟩
  · intro n i ha
    rw [e2] at ha
    obtain ⟨o, ho, hn, hv⟩ := hi.acts n i ha
    exact ⟨_, e6 i o ho, hn, by rw [e3, e4]; exact hv⟩
  · intro i e' he'
    obtain ⟨e, he, hn⟩ := back i e' he'
    rcases hi.reg i e he with h | h
    · rw [hp] at h; simp at h
    · right; rw [e2, hn]; exact h
  · intro i e' he'
    obtain ⟨e, he, hn⟩ := back i e' he'
    rw [hn]
    exact hi.names i e he
  · intro i e he
    refine ⟨_, e6 i e he, rfl, rfl, ?_⟩
    have hin : (e.name, i) ∈ s.actions := by
      rcases hi.reg i e he with h | h
      · rw [hp] at h; simp at h
      · exact h
    obtain ⟨_, _, _, hv⟩ := hi.acts _ _ hin
    rw [if_pos (List.mem_map.2 ⟨_, hin, rfl⟩), hm _ hv]

/-- Items that go through one pass unchanged were not named. -/
theorem pass_config {names : List Str} {items : List (Item α)} {m : List (Str × α)} (h : pass names items [] = .ok (m, [])) (n : Str) :
    m.lookup n = valueOf n items := by
  have := pass_lookup names n items _ _ _ h
  by_cases hn : names.count n = 0
  · obtain ⟨h1, h2⟩ := this.2 hn
    rw [h1, ← h2]; rfl
  · rw [(this.1 hn).1]; rfl

end Verif.Opt
