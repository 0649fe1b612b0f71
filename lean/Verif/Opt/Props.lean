import Verif.Opt.Accept

/-! # Program options (C113) -/

namespace Verif.Opt
open Verif Verif.Str Spec

variable {α : Type}

/-- The objects and the invariant after a call that was refused. -/
def Unchanged (s s' : St α) : Prop := Inv s' ∧ s'.opts = s.opts

/-- ... and after one that returned. -/
def Taken (items : List (Item α)) (s s' : St α) : Prop := Inv s' ∧ s'.opts.length = s.opts.length ∧
  ∀ (i : Nat) (e : Entry α), s.opts[i]? = some e → ∃ e', s'.opts[i]? = some e' ∧ e'.name = e.name ∧ e'.dflt = e.dflt ∧
    e'.saved = (valueOf (longName e.name) items).or e.saved

theorem parse_ok {s : St α} (hi : Inv s) (items : List (Item α)) (allow : Bool) :
    ((parseCommandLine s items allow).out = .abort → Unchanged s (parseCommandLine s items allow).st) ∧
    ∀ r, (parseCommandLine s items allow).out = .ok r → Taken items s (parseCommandLine s items allow).st := by
  unfold parseCommandLine
  cases hr : runInits s with
  | abort => exact ⟨fun _ => ⟨hi, rfl⟩, by simp⟩
  | ub => simp
  | ok s1 =>
    obtain ⟨hi1, ho, hp⟩ := runInits_ok hi hr
    have hun : Unchanged s s1 := ⟨hi1, ho⟩
    simp only [parseItems]
    cases h1 : pass s1.visible items [] with
    | abort => exact ⟨fun _ => hun, by simp⟩
    | ub => simp
    | ok x1 =>
      obtain ⟨m1, r1⟩ := x1
      simp only
      cases h2 : pass s1.hidden r1 m1 with
      | abort => exact ⟨fun _ => hun, by simp⟩
      | ub => simp
      | ok x2 =>
        obtain ⟨m2, r2⟩ := x2
        simp only
        split
        · exact ⟨fun _ => hun, by simp⟩
        · obtain ⟨k1, k2⟩ := process_items hi1 hp (m := m2) (items := items) fun n hn => passes_lookup hn h1 h2
          cases hpr : process m2 s1.actions s1 with
          | mk r s' =>
            rw [hpr] at k1
            cases r with
            | abort => exact absurd rfl k1
            | ub => simp
            | ok u =>
              obtain ⟨l1, l2, l3⟩ := k2 s' hpr
              have ht : Taken items s s' := ⟨l1, by rw [l2, ho], by rw [← ho]; exact l3⟩
              simp only
              split
              · exact ⟨by simp, fun _ _ => ht⟩
              · exact ⟨by simp, fun _ _ => ht⟩

theorem config_ok {s : St α} (hi : Inv s) (items : List (Item α)) :
    ((parseConfig s items).out = .abort → Unchanged s (parseConfig s items).st) ∧
    ∀ r, (parseConfig s items).out = .ok r → Taken items s (parseConfig s items).st := by
  unfold parseConfig
  cases hr : runInits s with
  | abort => exact ⟨fun _ => ⟨hi, rfl⟩, by simp⟩
  | ub => simp
  | ok s1 =>
    obtain ⟨hi1, ho, hp⟩ := runInits_ok hi hr
    have hun : Unchanged s s1 := ⟨hi1, ho⟩
    simp only
    cases h1 : pass s1.visible items [] with
    | abort => exact ⟨fun _ => hun, by simp⟩
    | ub => simp
    | ok x1 =>
      obtain ⟨m1, r1⟩ := x1
      simp only
      split
      · exact ⟨fun _ => hun, by simp⟩
      · next hempty =>
        have : r1 = [] := by cases r1 <;> simp at hempty ⊢
        subst this
        obtain ⟨k1, k2⟩ := process_items hi1 hp (m := m1) (items := items) fun n _ => pass_config h1 n
        cases hpr : process m1 s1.actions s1 with
        | mk r s' =>
          rw [hpr] at k1
          cases r with
          | abort => exact absurd rfl k1
          | ub => simp
          | ok u =>
            obtain ⟨l1, l2, l3⟩ := k2 s' hpr
            exact ⟨by simp, fun _ _ => ⟨l1, by rw [l2, ho], by rw [← ho]; exact l3⟩⟩

/-- What one operation does to the object `i`. -/
theorem step_ok {s : St α} (hi : Inv s) {o : Op α} (hname : ∀ n h d, o = .construct n h d → n.head? ≠ some 44) (b : Bool)
    (hb : (b = true ∧ ∃ r, (step s o).out = .ok (.returned r)) ∨ (b = false ∧ (step s o).out = .abort)) :
    Inv (step s o).st ∧ (step s o).st.opts.length = s.opts.length + (match o with | .construct _ _ _ => 1 | _ => 0) ∧
    (∀ (i : Nat) (e : Entry α), s.opts[i]? = some e → ∃ e', (step s o).st.opts[i]? = some e' ∧ e'.name = e.name ∧ e'.dflt = e.dflt ∧
      e'.saved = given (longName e.name) i [(o, b)] e.saved) ∧
    (∀ n h d, o = .construct n h d → (step s o).st.opts[s.opts.length]? = some ⟨n, h, d, none, true⟩) := by
  cases o with
  | construct n h d =>
    simp only [step, construct]
    have hget : ∀ i : Nat, (s.opts ++ [⟨n, h, d, none, true⟩])[i]? = if i = s.opts.length then some ⟨n, h, d, none, true⟩ else s.opts[i]? := by
      intro i; grind
    refine ⟨⟨?_, ?_, ?_⟩, by simp, ?_, ?_⟩
    · intro n' i ha
      obtain ⟨e, he, h1, h2⟩ := hi.acts n' i ha
      have : i < s.opts.length := (List.getElem?_eq_some_iff.1 he).1
      refine ⟨e, ?_, h1, h2⟩
      simp only [hget]
      rw [if_neg (by omega)]
      exact he
    · intro i e he
      simp only [hget] at he
      split at he
      · next hie => left; simp [hie]
      · rcases hi.reg i e he with h | h
        · left; simp [h]
        · right; exact h
    · intro i e he
      simp only [hget] at he
      split at he
      · simp only [Option.some.injEq] at he
        subst he
        exact hname n h d rfl
      · exact hi.names i e he
    · intro i e he
      have : i < s.opts.length := (List.getElem?_eq_some_iff.1 he).1
      refine ⟨e, ?_, rfl, rfl, rfl⟩
      simp only [hget]
      rw [if_neg (by omega)]
      exact he
    · intro n' h' d' he
      simp only [Op.construct.injEq] at he
      obtain ⟨rfl, rfl, rfl⟩ := he
      simp
  | destroy i =>
    simp only [step] at hb ⊢
    cases hs : s.opts[i]? with
    | none => rw [hs] at hb; simp at hb
    | some e =>
      have hget : ∀ j : Nat, (s.opts.set i { e with alive := false })[j]? = (s.opts[j]?).map fun x => if j = i then { x with alive := false } else x := by
        intro j
        rw [List.getElem?_set]
        by_cases hij : i = j
        · subst hij
          rw [if_pos rfl, if_pos (List.getElem?_eq_some_iff.1 hs).1, hs]; simp
        · have : j ≠ i := fun h => hij h.symm
          simp [hij, this]
      simp only
      refine ⟨⟨?_, ?_, ?_⟩, by simp, ?_, fun _ _ _ h => by simp at h⟩
      · intro n' j ha
        obtain ⟨e, he, h1, h2⟩ := hi.acts n' j ha
        simp only [hget, he, Option.map_some]
        split <;> exact ⟨_, rfl, h1, h2⟩
      · intro j x hx
        simp only [hget, Option.map_eq_some_iff] at hx
        obtain ⟨y, hy, rfl⟩ := hx
        have := hi.reg j y hy
        split <;> exact this
      · intro j x hx
        simp only [hget, Option.map_eq_some_iff] at hx
        obtain ⟨y, hy, rfl⟩ := hx
        have := hi.names j y hy
        split <;> exact this
      · intro j x hx
        simp only [hget, hx, Option.map_some]
        split <;> exact ⟨_, rfl, rfl, rfl, rfl⟩
  | set i v =>
    simp only [step] at hb ⊢
    cases hs : s.opts[i]? with
    | none => rw [hs] at hb; simp at hb
    | some e =>
      simp only [hs] at hb
      cases hal : e.alive
      · simp [hal] at hb
      have hget : ∀ j : Nat, (s.opts.set i { e with saved := some v })[j]? = (s.opts[j]?).map fun x => if j = i then { x with saved := some v } else x := by
        intro j
        rw [List.getElem?_set]
        by_cases hij : i = j
        · subst hij
          rw [if_pos rfl, if_pos (List.getElem?_eq_some_iff.1 hs).1, hs]; simp
        · have : j ≠ i := fun h => hij h.symm
          simp [hij, this]
      simp only
      rw [if_pos hal]
      refine ⟨⟨?_, ?_, ?_⟩, by simp, ?_, fun _ _ _ h => by simp at h⟩
      · intro n' j ha
        obtain ⟨e, he, h1, h2⟩ := hi.acts n' j ha
        simp only [hget, he, Option.map_some]
        split <;> exact ⟨_, rfl, h1, h2⟩
      · intro j x hx
        simp only [hget, Option.map_eq_some_iff] at hx
        obtain ⟨y, hy, rfl⟩ := hx
        have := hi.reg j y hy
        split <;> exact this
      · intro j x hx
        simp only [hget, Option.map_eq_some_iff] at hx
        obtain ⟨y, hy, rfl⟩ := hx
        have := hi.names j y hy
        split <;> exact this
      · intro j x hx
        simp only [hget, hx, Option.map_some]
        refine ⟨_, rfl, ?_, ?_, ?_⟩
        · split <;> rfl
        · split <;> rfl
        · simp only [given]
          by_cases hji : j = i
          · simp [hji]
          · have : i ≠ j := fun h => hji h.symm
            simp [hji, this]
  | parse is a =>
    obtain ⟨k1, k2⟩ := parse_ok hi is a
    simp only [step] at hb ⊢
    rcases hb with ⟨rfl, r, hr⟩ | ⟨rfl, hr⟩
    · obtain ⟨l1, l2, l3⟩ := k2 _ hr
      exact ⟨l1, by simp [l2], fun i e he => l3 i e he, fun _ _ _ h => by simp at h⟩
    · obtain ⟨l1, l2⟩ := k1 hr
      exact ⟨l1, by simp [l2], fun i e he => ⟨e, by rw [l2]; exact he, rfl, rfl, rfl⟩, fun _ _ _ h => by simp at h⟩
  | config is =>
    obtain ⟨k1, k2⟩ := config_ok hi is
    simp only [step] at hb ⊢
    rcases hb with ⟨rfl, r, hr⟩ | ⟨rfl, hr⟩
    · obtain ⟨l1, l2, l3⟩ := k2 _ hr
      exact ⟨l1, by simp [l2], fun i e he => l3 i e he, fun _ _ _ h => by simp at h⟩
    · obtain ⟨l1, l2⟩ := k1 hr
      exact ⟨l1, by simp [l2], fun i e he => ⟨e, by rw [l2]; exact he, rfl, rfl, rfl⟩, fun _ _ _ h => by simp at h⟩

theorem given_append (long : Str) (i : Nat) : ∀ (l l' : List (Op α × Bool)) (a : Option α),
    given long i (l ++ l') a = given long i l' (given long i l a) := by
  intro l
  induction l with
  | nil => intros; rfl
  | cons x l ih =>
    intro l' a
    obtain ⟨o, b⟩ := x
    cases o <;> cases b <;> simp only [List.cons_append, given, ih]

/-- A program, step by step. -/
theorem run_cons {s s' : St α} {o : Op α} {os : List (Op α)} {bs : List Bool} (h : run s (o :: os) = some (s', bs)) :
    ∃ b bs', bs = b :: bs' ∧ ((b = true ∧ ∃ r, (step s o).out = .ok (.returned r)) ∨ (b = false ∧ (step s o).out = .abort)) ∧
      run (step s o).st os = some (s', bs') := by
  simp only [run] at h
  split at h
  · next r hr =>
    simp only [Option.map_eq_some_iff] at h
    obtain ⟨⟨s1, bs1⟩, h1, h2⟩ := h
    simp only [Prod.mk.injEq] at h2
    obtain ⟨rfl, rfl⟩ := h2
    exact ⟨true, bs1, rfl, .inl ⟨rfl, r, hr⟩, h1⟩
  · next hr =>
    simp only [Option.map_eq_some_iff] at h
    obtain ⟨⟨s1, bs1⟩, h1, h2⟩ := h
    simp only [Prod.mk.injEq] at h2
    obtain ⟨rfl, rfl⟩ := h2
    exact ⟨false, bs1, rfl, .inr ⟨rfl, hr⟩, h1⟩
  · simp at h

def NamesOk (ops : List (Op α)) : Prop := ∀ n h d, .construct n h d ∈ ops → n.head? ≠ some 44

theorem run_ok : ∀ (ops : List (Op α)) {s s' : St α} {bs : List Bool}, Inv s → NamesOk ops → run s ops = some (s', bs) →
    Inv s' ∧ bs.length = ops.length ∧
    s'.opts.length = s.opts.length + ops.countP (fun o => match o with | .construct _ _ _ => true | _ => false) ∧
    ∀ (i : Nat) (e : Entry α), s.opts[i]? = some e → ∃ e', s'.opts[i]? = some e' ∧ e'.name = e.name ∧ e'.dflt = e.dflt ∧
      e'.saved = given (longName e.name) i (ops.zip bs) e.saved := by
  intro ops
  induction ops with
  | nil =>
    intro s s' bs hi _ h
    simp only [run, Option.some.injEq, Prod.mk.injEq] at h
    obtain ⟨rfl, rfl⟩ := h
    exact ⟨hi, rfl, rfl, fun i e he => ⟨e, he, rfl, rfl, rfl⟩⟩
  | cons o ops ih =>
    intro s s' bs hi hn h
    obtain ⟨b, bs', rfl, hb, hr⟩ := run_cons h
    obtain ⟨k1, k2, k3, _⟩ := step_ok hi (o := o) (fun n h' d e => hn n h' d (by rw [e]; simp)) b hb
    obtain ⟨l1, l2, l3, l4⟩ := ih k1 (fun n h' d e => hn n h' d (by simp [e])) hr
    refine ⟨l1, by simp [l2], ?_, ?_⟩
    · rw [l3, k2]
      cases o <;> simp <;> omega
    · intro i e he
      obtain ⟨e1, h1, h2, h3, h4⟩ := k3 i e he
      obtain ⟨e2, g1, g2, g3, g4⟩ := l4 i e1 h1
      refine ⟨e2, g1, g2.trans h2, g3.trans h3, ?_⟩
      rw [g4, h4, h2]
      rw [show (o :: ops).zip (b :: bs') = [(o, b)] ++ ops.zip bs' from rfl, given_append]

theorem inv_init (d : α) : Inv (init d) := by
  constructor
  · simp [init, construct]
  · intro i o h
    left
    have : i = 0 := by
      have := (List.getElem?_eq_some_iff.1 h).1
      simp [init, construct] at this
      exact this
    simp [init, construct, this]
  · intro i o h
    simp only [init, construct, List.nil_append] at h
    have : i = 0 := by
      have := (List.getElem?_eq_some_iff.1 h).1
      simp at this
      exact this
    subst this
    simp only [List.getElem?_cons_zero, Option.some.injEq] at h
    subst h
    show helpName.head? ≠ some 44
    decide

theorem run_append : ∀ (xs ys : List (Op α)) {s s' : St α} {bs : List Bool}, run s (xs ++ ys) = some (s', bs) →
    ∃ s1 b1 b2, run s xs = some (s1, b1) ∧ run s1 ys = some (s', b2) ∧ bs = b1 ++ b2 := by
  intro xs
  induction xs with
  | nil => intro ys s s' bs h; exact ⟨s, [], bs, rfl, h, rfl⟩
  | cons x xs ih =>
    intro ys s s' bs h
    obtain ⟨b, bs', rfl, hb, hr⟩ := run_cons h
    obtain ⟨s1, b1, b2, h1, h2, h3⟩ := ih ys hr
    refine ⟨s1, b :: b1, b2, ?_, h2, by simp [h3]⟩
    simp only [run]
    rcases hb with ⟨rfl, r, hr⟩ | ⟨rfl, hr⟩
    · rw [hr]; simp [h1]
    · rw [hr]; simp [h1]

/-- **C113.** Whatever options a program constructs, destroys, sets and parses, in whatever order, and even if it goes on after parses that throw: the value of
an option is the last one it was given since its construction, by `set` or by a command line or configuration file that was accepted and names it; if there is
none, its default. Rejected command lines and ones that do not name it change nothing, and it makes no difference whether it was constructed
before or after other parses. -/
theorem options_value (d0 : α) (pre post : List (Op α)) (name long : Str) (hidden : Bool) (d : α) (hl : Long name long)
    (hn : NamesOk (pre ++ .construct name hidden d :: post)) (s : St α) (bs : List Bool)
    (h : run (init d0) (pre ++ .construct name hidden d :: post) = some (s, bs)) :
    get s (constructed pre) = some ((given long (constructed pre) (post.zip (bs.drop (pre.length + 1))) none).getD d) ∧
    used s (constructed pre) = (given long (constructed pre) (post.zip (bs.drop (pre.length + 1))) none).isSome := by
  obtain ⟨s1, b1, b2, h1, h2, rfl⟩ := run_append pre _ h
  obtain ⟨b, b3, rfl, hb, h3⟩ := run_cons h2
  obtain ⟨k1, k2, k3, k4⟩ := run_ok pre (inv_init d0) (fun n h' d e => hn n h' d (by simp [e])) h1
  have hlen : s1.opts.length = constructed pre := by rw [k3]; rfl
  obtain ⟨l1, _, _, l4⟩ := step_ok k1 (o := .construct name hidden d) (fun n h' d' e => hn n h' d' (by rw [e]; simp)) b hb
  have he := l4 name hidden d rfl
  rw [hlen] at he
  obtain ⟨_, _, _, m4⟩ := run_ok post l1 (fun n h' d e => hn n h' d (by simp [e])) h3
  obtain ⟨e', g1, g2, g3, g4⟩ := m4 _ _ he
  have hlong : longName name = long := Long.unique (longName_spec name) hl
  simp only [hlong] at g4
  have hdrop : (b1 ++ b :: b3).drop (pre.length + 1) = b3 := by
    rw [← k2]
    simp [List.drop_append]
  rw [hdrop]
  simp only [get, used, g1, Option.map_some, g3, g4, and_self]

theorem run_reg : ∀ (ops : List (Op α)) {s s' : St α} {bs : List Bool} {k : Nat}, Reg s k → NamesOk ops → (∀ i, .destroy i ∉ ops) →
    run s ops = some (s', bs) → ∃ k', Reg s' k' ∧
      s'.opts.map (fun o => (o.name, o.hidden)) = s.opts.map (fun o => (o.name, o.hidden)) ++ skel ops := by
  intro ops
  induction ops with
  | nil =>
    intro s s' bs k h _ _ hr
    simp only [run, Option.some.injEq, Prod.mk.injEq] at hr
    obtain ⟨rfl, rfl⟩ := hr
    exact ⟨k, h, by simp [skel]⟩
  | cons o ops ih =>
    intro s s' bs k h hn hd hr
    obtain ⟨b, bs', rfl, hb, hr⟩ := run_cons hr
    obtain ⟨k1, h1, h2⟩ := step_reg h (o := o) (fun i e => hd i (by rw [e]; simp)) (fun n h' d e => hn n h' d (by rw [e]; simp))
      (by rcases hb with ⟨_, r, e⟩ | ⟨_, e⟩ <;> rw [e] <;> simp)
    obtain ⟨k2, h3, h4⟩ := ih h1 (fun n h' d e => hn n h' d (by simp [e])) (fun i e => hd i (by simp [e])) hr
    refine ⟨k2, h3, ?_⟩
    rw [h4, h2]
    cases o <;> simp [skel]

theorem init_reg (d : α) : Reg (init d) 0 := by
  refine ⟨by simp, rfl, rfl, rfl, by simp [init, construct], ?_⟩
  intro i o ho
  simp only [init, construct, List.nil_append] at ho
  have : i = 0 := by
    have := (List.getElem?_eq_some_iff.1 ho).1
    simp at this
    exact this
  subst this
  simp only [List.getElem?_cons_zero, Option.some.injEq] at ho
  subst ho
  refine ⟨rfl, ?_⟩
  show helpName.head? ≠ some 44
  decide

theorem skel_names (hid : Bool) : ∀ ops : List (Op α), ((skel ops).filter fun x => x.2 = hid).map (fun x => longName x.1) = namesOf hid ops := by
  intro ops
  induction ops with
  | nil => rfl
  | cons o ops ih =>
    cases o with
    | construct n h d =>
      simp only [skel, namesOf, List.filter_cons, beforeComma_eq]
      by_cases hh : h = hid <;> simp [hh, ih]
    | _ => simpa only [skel, namesOf] using ih

/-- The long name of the help option: `help`. -/
def helpLong : Str := [104, 101, 108, 112]

theorem names_after (d0 : α) {ops : List (Op α)} (hn : NamesOk ops) (hd : ∀ i, .destroy i ∉ ops) {s : St α} {bs : List Bool}
    (h : run (init d0) ops = some (s, bs)) : (∃ k, Reg s k) ∧ allNames s false = helpLong :: namesOf false ops ∧ allNames s true = namesOf true ops ∧
    (∃ e : Entry α, s.opts[0]? = some e ∧ e.name = helpName) := by
  obtain ⟨k, h1, h2⟩ := run_reg ops (init_reg d0) hn hd h
  have hi : (init d0).opts.map (fun o => (o.name, o.hidden)) = [(helpName, false)] := rfl
  rw [hi] at h2
  refine ⟨⟨k, h1⟩, ?_, ?_, ?_⟩
  · unfold allNames
    rw [h2, List.filter_append, List.map_append, skel_names]; rfl
  · unfold allNames
    rw [h2, List.filter_append, List.map_append, skel_names]; rfl
  · have := congrArg (fun l => l[0]?) h2
    simp only [List.getElem?_map, List.singleton_append, List.getElem?_cons_zero, Option.map_eq_some_iff] at this
    obtain ⟨e, he, h3⟩ := this
    simp only [Prod.mk.injEq] at h3
    exact ⟨e, he, h3.1⟩

/-- **C113.** Which command lines a program's options accept, when every option is still there: it throws exactly when a name clashes, see `Clash`,
or when something is left over and that is not allowed; it exits exactly when the line is accepted and the help option is named, or was given a value before;
and otherwise it returns what no option is named by, in the order it was given. -/
theorem options_outcome (d0 : α) (ops : List (Op α)) (hn : NamesOk ops) (hd : ∀ i, .destroy i ∉ ops) (s : St α) (bs : List Bool)
    (h : run (init d0) ops = some (s, bs)) (items : List (Item α)) (allow : Bool) (vis hid : List Str) (hv : vis = helpLong :: namesOf false ops)
    (hh : hid = namesOf true ops) :
    ((parseCommandLine s items allow).out = .abort ↔ Clash vis hid items ∨ (allow = false ∧ unknown (vis ++ hid) items ≠ [])) ∧
    ((parseCommandLine s items allow).out = .ok .exited ↔ ¬ (Clash vis hid items ∨ (allow = false ∧ unknown (vis ++ hid) items ≠ [])) ∧
      (used s 0 = true ∨ occurs helpLong items ≠ 0)) ∧
    (∀ rest, (parseCommandLine s items allow).out = .ok (.returned rest) ↔
      ¬ (Clash vis hid items ∨ (allow = false ∧ unknown (vis ++ hid) items ≠ [])) ∧ ¬ (used s 0 = true ∨ occurs helpLong items ≠ 0) ∧
      rest = unknown (vis ++ hid) items) ∧
    (parseCommandLine s items allow).out ≠ .ub := by
  obtain ⟨⟨k, hr⟩, n1, n2, e, he, hen⟩ := names_after d0 hn hd h
  obtain ⟨k', _, _, ho⟩ := parse_reg hr items allow
  rw [n1, n2, ← hv, ← hh] at ho
  obtain ⟨hi, _⟩ := run_ok ops (inv_init d0) hn h
  rcases ho with ⟨hc, ho⟩ | ⟨hc, ho⟩
  · rw [ho]
    simp [hc]
  · have hok : ∃ r, (parseCommandLine s items allow).out = .ok r := by rw [ho]; split <;> exact ⟨_, rfl⟩
    obtain ⟨r, hr⟩ := hok
    obtain ⟨_, _, ht⟩ := (parse_ok hi items allow).2 r hr
    obtain ⟨e', g1, _, _, g4⟩ := ht 0 e he
    have hu : helpUsed (parseCommandLine s items allow).st = true ↔ (used s 0 = true ∨ occurs helpLong items ≠ 0) := by
      simp only [helpUsed, used, g1, he, g4, hen, Option.isSome_or, Bool.or_eq_true, valueOf_isSome, decide_eq_true_eq]
      exact Or.comm
    rw [ho]
    by_cases hx : helpUsed (parseCommandLine s items allow).st = true
    · rw [if_pos hx]
      simp [hc, hu.1 hx]
    · rw [if_neg hx]
      have hy : ¬ (used s 0 = true ∨ occurs helpLong items ≠ 0) := fun z => hx (hu.2 z)
      simp only [hc, hy, Res.ok.injEq, Out.returned.injEq, not_false_eq_true, true_and]
      refine ⟨by simp, by simp, ?_, by simp⟩
      intro rest
      exact eq_comm

/-- **C113.** Configuration files: they throw exactly when a name clashes among the options that are not hidden, or when they contain anything else.
So a hidden option cannot be given there. -/
theorem options_config (d0 : α) (ops : List (Op α)) (hn : NamesOk ops) (hd : ∀ i, .destroy i ∉ ops) (s : St α) (bs : List Bool)
    (h : run (init d0) ops = some (s, bs)) (items : List (Item α)) (vis : List Str) (hv : vis = helpLong :: namesOf false ops) :
    ((parseConfig s items).out = .abort ↔ Clash vis [] items ∨ unknown vis items ≠ []) ∧
    ((parseConfig s items).out = .ok (.returned []) ↔ ¬ (Clash vis [] items ∨ unknown vis items ≠ [])) := by
  obtain ⟨⟨k, hr⟩, n1, n2, e, he, hen⟩ := names_after d0 hn hd h
  obtain ⟨k', _, _, ho⟩ := config_reg hr items
  rw [n1, ← hv] at ho
  rcases ho with ⟨hc, ho⟩ | ⟨hc, ho⟩
  · rw [ho]; simp only [hc, not_true_eq_false, iff_false]; exact ⟨trivial, by simp⟩
  · rw [ho]; simp only [hc, iff_false, not_false_eq_true]; exact ⟨by simp, trivial⟩

/-! ## Concrete cases and witnesses -/

/-- A shown option `v,q`, a hidden one `x`. -/
def sample : List (Op Nat) :=
  [.construct [118, 44, 113] false 5, .parse [.opt [118] 7, .other [65]] true, .construct [120] true 9, .parse [.opt [120] 1] false, .parse [.opt [118] 8, .opt [118] 9] true]

example : (run (init 0) sample).map (fun x => (x.2, get x.1 1, get x.1 2, used x.1 1)) = some ([true, true, true, true, false], some 7, some 1, true) := by decide

example : NamesOk sample := by
  intro n h d hm
  simp only [sample, List.mem_cons, Op.construct.injEq, reduceCtorEq, List.not_mem_nil, or_false, false_or] at hm
  rcases hm with ⟨rfl, _, _⟩ | ⟨rfl, _, _⟩ <;> decide

example : Long [118, 44, 113] [118] := ⟨by decide, .inr ⟨[113], rfl⟩⟩

/-- **C113, witness.** An option object that is destroyed stays registered: the next parse is undefined, even one that does not name it. -/
theorem options_destroyed_ub : ∃ s, run (init 0) [.construct [118] false 5, .destroy 1] = some (s, [true, true]) ∧
    (parseCommandLine s [] false).out = .ub := ⟨_, rfl, rfl⟩

/-- **C113, witness.** A name that starts with a comma makes every later parse throw, and the help option has by then taken the line's value. -/
theorem options_comma_false : ∃ s, run (init 0) [.construct [44, 113] false 5] = some (s, [true]) ∧
    (parseCommandLine s [.opt helpLong 1] false).out = .abort ∧ used (parseCommandLine s [.opt helpLong 1] false).st 0 = true :=
  ⟨_, rfl, rfl, rfl⟩

/-- **C113, witness.** Two options of one name: a line that names them throws, when both are shown; when one is hidden both take the value. -/
theorem options_twice : ((run (init 0) [.construct [118] false 5, .construct [118] false 6, .parse [.opt [118] 7] true]).map (·.2) = some [true, true, false]) ∧
    (run (init 0) [.construct [118] false 5, .construct [118] true 6, .parse [.opt [118] 7] true]).map (fun x => (x.2, get x.1 1, get x.1 2)) =
      some ([true, true, true], some 7, some 7) := by decide

/-- **C113, witness.** A hidden option cannot be given in a configuration file. -/
theorem options_hidden_config : (run (init 0) [.construct [118] true 5, .config [.opt [118] 7]]).map (·.2) = some [true, false] := by decide

end Verif.Opt
