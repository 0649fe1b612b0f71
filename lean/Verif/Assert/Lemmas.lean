import Verif.Assert.Spec

namespace Verif.Assert
open Spec

/-- A failed assertion inside a hook. -/
def flaggedResult (site : Site) (m : Msg) (s : State) : Out × State :=
  match m.text with
  | .ok t => (.died, (s.emit (.recursing site)).emit (.banner site t))
  | .error .std => (.died, (s.emit (.recursing site)).emit (.banner site .evaluating))
  | .error e => (.threw e, s)

theorem fail_flagged {bodies nested site t} {s : State} (h : s.flag = true) :
    fail bodies nested site t s = (.died, (s.emit (.recursing site)).emit (.banner site t)) := by
  simp [fail, failTail, h, State.emit]

theorem macroFail_flagged {bodies nested site m} {s : State} (h : s.flag = true) : macroFail bodies nested site m s = flaggedResult site m s := by
  cases m <;> simp [macroFail, flaggedResult, Msg.text, fail_flagged h]

/-- `nested` is a failed assertion, as seen from within a hook. -/
def Nested (nested : Site → Msg → State → Out × State) : Prop := ∀ si m s, s.flag = true → nested si m s = flaggedResult si m s

theorem nested_failed (bodies : Nat → List Act) (k : Nat) : Nested (failed bodies (k + 1)) := fun _ _ _ h => macroFail_flagged h

theorem runActs_congr {n1 n2} (h1 : Nested n1) (h2 : Nested n2) {w site t} (acts : List Act) {s : State} (hf : s.flag = true) :
    runActs n1 w site t acts s = runActs n2 w site t acts s := by
  induction acts generalizing s with
  | nil => rfl
  | cons a as ih =>
    cases a with
    | say n => exact ih hf
    | check b si m =>
      cases b
      · simp only [runActs, h1 si m s hf, h2 si m s hf]
        cases m <;> simp [flaggedResult, Msg.text]
      · exact ih hf
    | throwAB => rfl
    | throw e => rfl
    | addPre h => simp only [runActs]; split; · rfl
                  exact ih hf
    | addPost h => simp only [runActs]; split; · rfl
                   exact ih hf
    | clear => rfl

theorem runHooks_congr {bodies n1 n2} (h1 : Nested n1) (h2 : Nested n2) {w site t} (hs : List Nat) (s : State) :
    runHooks bodies n1 w site t hs s = runHooks bodies n2 w site t hs s := by
  induction hs generalizing s with
  | nil => rfl
  | cons h hs ih =>
    simp only [runHooks]
    rw [runActs_congr h1 h2 (bodies h) (s := { s with flag := true, log := s.log ++ [.call h site t] }) rfl]
    split
    · rfl
    · split <;> try rfl
      split
      · exact ih _
      · rfl

theorem fail_congr {bodies n1 n2} (h1 : Nested n1) (h2 : Nested n2) {site t} (s : State) : fail bodies n1 site t s = fail bodies n2 site t s := by
  have ht : ∀ s, failTail bodies n1 site t s = failTail bodies n2 site t s := by
    intro s; simp only [failTail, runHooks_congr h1 h2]
  simp only [fail, runHooks_congr h1 h2, ht]

theorem macroFail_congr {bodies n1 n2} (h1 : Nested n1) (h2 : Nested n2) {site m} (s : State) :
    macroFail bodies n1 site m s = macroFail bodies n2 site m s := by
  simp only [macroFail, fail_congr h1 h2]

/-! ## Calm hooks -/

theorem runActs_calm {nested w site t} {acts : List Act} (h : Calm acts) (rest : List Act) (s : State) :
    runActs nested w site t (acts ++ rest) s = runActs nested w site t rest { s with log := s.log ++ writes acts } := by
  induction acts generalizing s with
  | nil => simp [writes]
  | cons a as ih =>
    obtain ⟨n, rfl⟩ := h a (by simp)
    simp only [List.cons_append, runActs, writes]
    rw [ih (fun a ha => h a (by simp [ha]))]
    simp [State.emit]

theorem runHooks_calm {bodies nested w site t} {hs : List Nat} (h : ∀ x ∈ hs, Calm (bodies x)) (rest : List Nat) {s : State} (hf : s.flag = false) :
    runHooks bodies nested w site t (hs ++ rest) s = runHooks bodies nested w site t rest { s with log := s.log ++ calls bodies site t hs } := by
  induction hs generalizing s with
  | nil => simp [calls]
  | cons x hs ih =>
    simp only [List.cons_append, runHooks, hf, Bool.false_eq_true, if_false]
    have e := runActs_calm (nested := nested) (w := w) (site := site) (t := t) (h x (by simp)) [] { s with flag := true, log := s.log ++ [.call x site t] }
    rw [List.append_nil] at e
    rw [e]
    simp only [runActs, if_true]
    rw [ih (fun y hy => h y (by simp [hy])) rfl]
    cases s
    simp_all [calls]

/-! ## What a hook leaves behind -/

theorem runActs_flag {nested} (hn : Nested nested) {w site t} (acts : List Act) {s s' : State} {o : Out} (hf : s.flag = true)
    (h : runActs nested w site t acts s = (o, s')) : s'.flag = true := by
  induction acts generalizing s with
  | nil => cases h; exact hf
  | cons a as ih =>
    cases a with
    | say n => exact ih (s := s.emit _) hf h
    | check b si m =>
      cases b
      · simp only [runActs, hn si m s hf] at h
        cases m <;> (simp [flaggedResult, Msg.text] at h; obtain ⟨_, rfl⟩ := h; exact hf)
      · exact ih hf h
    | throwAB => cases h; exact hf
    | throw e => cases h; exact hf
    | addPre x =>
      simp only [runActs] at h
      split at h
      · cases h; exact hf
      · exact ih (s := { s with pre := s.pre ++ [x] }) hf h
    | addPost x =>
      simp only [runActs] at h
      split at h
      · cases h; exact hf
      · exact ih (s := { s with post := s.post ++ [x] }) hf h
    | clear => cases h; exact hf

theorem runActs_lists {nested} (hn : Nested nested) {w site t} {acts : List Act} (hl : Leaves acts) {s s' : State} {o : Out} (hf : s.flag = true)
    (h : runActs nested w site t acts s = (o, s')) : s'.pre = s.pre ∧ s'.post = s.post := by
  induction acts generalizing s with
  | nil => cases h; exact ⟨rfl, rfl⟩
  | cons a as ih =>
    have ih := fun {s : State} => @ih (fun a ha => hl a (by simp [ha])) s
    cases a with
    | say n => exact ih (s := s.emit _) hf h
    | check b si m =>
      cases b
      · simp only [runActs, hn si m s hf] at h
        cases m <;> (simp [flaggedResult, Msg.text] at h; obtain ⟨_, rfl⟩ := h; exact ⟨rfl, rfl⟩)
      · exact ih hf h
    | throwAB => cases h; exact ⟨rfl, rfl⟩
    | throw e => cases h; exact ⟨rfl, rfl⟩
    | addPre x => exact absurd rfl ((hl (.addPre x) (by simp)).1 x)
    | addPost x => exact absurd rfl ((hl (.addPost x) (by simp)).2.1 x)
    | clear => exact absurd rfl ((hl .clear (by simp)).2.2)

theorem runHooks_flag {bodies nested} (hn : Nested nested) {w site t} (hs : List Nat) {s s' : State} {o : Out} (hf : s.flag = false)
    (h : runHooks bodies nested w site t hs s = (o, s')) : (o = .ret ∨ ∃ e, o = .threw e) → s'.flag = false := by
  induction hs generalizing s with
  | nil => cases h; exact fun _ => hf
  | cons x hs ih =>
    simp only [runHooks, hf, Bool.false_eq_true, if_false] at h
    generalize hr : runActs nested w site t (bodies x) { s with flag := true, log := s.log ++ [.call x site t] } = r at h
    obtain ⟨o1, s1⟩ := r
    have hfl := runActs_flag hn (bodies x) rfl hr
    cases o1 with
    | ret => simp only [hfl, if_true] at h; exact ih rfl h
    | threw e => simp only [hfl, if_true] at h; cases h; exact fun _ => rfl
    | died => simp only at h; cases h; rintro (h | ⟨_, h⟩) <;> cases h
    | ub => simp only at h; cases h; rintro (h | ⟨_, h⟩) <;> cases h

theorem runHooks_lists {bodies nested} (hl : ∀ x, Leaves (bodies x)) (hn : Nested nested) {w site t} (hs : List Nat) {s s' : State} {o : Out}
    (hf : s.flag = false) (h : runHooks bodies nested w site t hs s = (o, s')) : s'.pre = s.pre ∧ s'.post = s.post := by
  induction hs generalizing s with
  | nil => cases h; exact ⟨rfl, rfl⟩
  | cons x hs ih =>
    simp only [runHooks, hf, Bool.false_eq_true, if_false] at h
    generalize hr : runActs nested w site t (bodies x) { s with flag := true, log := s.log ++ [.call x site t] } = r at h
    obtain ⟨o1, s1⟩ := r
    have hfl := runActs_flag hn (bodies x) rfl hr
    have hli := runActs_lists hn (hl x) rfl hr
    cases o1 with
    | ret =>
      simp only [hfl, if_true] at h
      have := ih rfl h
      exact ⟨this.1.trans hli.1, this.2.trans hli.2⟩
    | threw e => simp only [hfl, if_true] at h; cases h; exact hli
    | died => simp only at h; cases h; exact hli
    | ub => simp only at h; cases h; exact hli

theorem failTail_out {bodies nested} (hn : Nested nested) {site t} {s s' : State} {o : Out} (hf : s.flag = false)
    (h : failTail bodies nested site t s = (o, s')) :
    o ≠ .ret ∧ ((∃ e, o = .threw e) → s'.flag = false) ∧ ((∀ x, Leaves (bodies x)) → s'.pre = s.pre ∧ s'.post = s.post) := by
  simp only [failTail, State.emit, hf, Bool.false_eq_true, if_false] at h
  generalize hr : runHooks bodies nested .post site t s.post { s with flag := false, log := s.log ++ [.banner site t] } = r at h
  obtain ⟨o1, s1⟩ := r
  have hfl := runHooks_flag (s := { s with flag := false, log := s.log ++ [.banner site t] }) hn s.post rfl hr
  have hli := fun hl => runHooks_lists (s := { s with flag := false, log := s.log ++ [.banner site t] }) hl hn s.post rfl hr
  cases o1 <;> cases h
  · refine ⟨by simp, ?_, fun hl => hli hl⟩; rintro ⟨_, h⟩; cases h
  · refine ⟨by simp, ?_, fun hl => hli hl⟩; rintro ⟨_, h⟩; cases h
  · exact ⟨by simp, fun _ => hfl (Or.inr ⟨_, rfl⟩), fun hl => hli hl⟩
  · refine ⟨by simp, ?_, fun hl => hli hl⟩; rintro ⟨_, h⟩; cases h

theorem fail_out {bodies nested} (hn : Nested nested) {site t} {s s' : State} {o : Out} (hf : s.flag = false)
    (h : fail bodies nested site t s = (o, s')) :
    o ≠ .ret ∧ ((∃ e, o = .threw e) → s'.flag = false) ∧ ((∀ x, Leaves (bodies x)) → s'.pre = s.pre ∧ s'.post = s.post) := by
  simp only [fail, hf, Bool.false_eq_true, if_false] at h
  generalize hr : runHooks bodies nested .pre site t s.pre s = r at h
  obtain ⟨o1, s1⟩ := r
  have hfl := runHooks_flag hn s.pre hf hr
  have hli := fun hl => runHooks_lists hl hn s.pre hf hr
  cases o1 <;> simp only at h
  · obtain ⟨a, b, c⟩ := failTail_out hn (hfl (Or.inl rfl)) h
    exact ⟨a, b, fun hl => ⟨(c hl).1.trans (hli hl).1, (c hl).2.trans (hli hl).2⟩⟩
  · cases h; refine ⟨by simp, ?_, fun hl => hli hl⟩; rintro ⟨_, h⟩; cases h
  · cases h; exact ⟨by simp, fun _ => hfl (Or.inr ⟨_, rfl⟩), fun hl => hli hl⟩
  · cases h; refine ⟨by simp, ?_, fun hl => hli hl⟩; rintro ⟨_, h⟩; cases h

theorem macroFail_out {bodies nested} (hn : Nested nested) {site m} {s s' : State} {o : Out} (hf : s.flag = false)
    (h : macroFail bodies nested site m s = (o, s')) :
    o ≠ .ret ∧ ((∃ e, o = .threw e) → s'.flag = false) ∧ ((∀ x, Leaves (bodies x)) → s'.pre = s.pre ∧ s'.post = s.post) := by
  have key : ∀ r : Out × State, (r.1 ≠ .ret ∧ ((∃ e, r.1 = .threw e) → r.2.flag = false) ∧ ((∀ x, Leaves (bodies x)) → r.2.pre = s.pre ∧ r.2.post = s.post)) →
      (match r with | (.threw .std, s') => fail bodies nested site .evaluating s' | r => r) = (o, s') →
      o ≠ .ret ∧ ((∃ e, o = .threw e) → s'.flag = false) ∧ ((∀ x, Leaves (bodies x)) → s'.pre = s.pre ∧ s'.post = s.post) := by
    rintro ⟨o1, s1⟩ ⟨h1, h2, h3⟩ h
    split at h
    · next s2 heq =>
      cases heq
      obtain ⟨a, b, c⟩ := fail_out hn (h2 ⟨_, rfl⟩) h
      exact ⟨a, b, fun hl => ⟨(c hl).1.trans (h3 hl).1, (c hl).2.trans (h3 hl).2⟩⟩
    · cases h; exact ⟨h1, h2, h3⟩
  unfold macroFail at h
  refine key _ ?_ h
  cases hm : m.text with
  | error e => exact ⟨by simp, fun _ => hf, fun _ => ⟨rfl, rfl⟩⟩
  | ok t =>
    simp only
    generalize hr : fail bodies nested site t s = r
    obtain ⟨o1, s1⟩ := r
    exact fail_out hn hf hr

/-! ## What is printed -/

/-- No complaint about the flag; with `b`, no complaint about recursion either. -/
def Quiet (b : Bool) (e : Ev) : Prop := e ≠ .badFlag ∧ (b = true → ∀ si, e ≠ .recursing si)

theorem runActs_quiet {nested} (hn : Nested nested) {w site t} (acts : List Act) {b : Bool} (hs : b = true → Sound acts) {s s' : State} {o : Out}
    (hf : s.flag = true) (h : runActs nested w site t acts s = (o, s')) : ∀ e ∈ s'.log, e ∈ s.log ∨ Quiet b e := by
  induction acts generalizing s with
  | nil => cases h; exact fun e he => Or.inl he
  | cons a as ih =>
    have ih := fun {s : State} => @ih (fun hb a ha => hs hb a (by simp [ha])) s
    cases a with
    | say n =>
      intro e he
      rcases ih (s := s.emit _) hf h e he with h1 | h1
      · simp only [State.emit, List.mem_append, List.mem_singleton] at h1
        rcases h1 with h1 | rfl
        · exact Or.inl h1
        · exact Or.inr ⟨by simp, by simp⟩
      · exact Or.inr h1
    | check c si m =>
      cases c
      · have hb : b = false := by
          cases b
          · rfl
          · exact absurd rfl (hs rfl (.check false si m) (by simp) si m)
        subst hb
        simp only [runActs, hn si m s hf] at h
        cases m <;> (simp [flaggedResult, Msg.text] at h; obtain ⟨_, rfl⟩ := h; intro e he; try simp [State.emit] at he) <;>
          first
          | (rcases he with he | rfl | rfl
             · exact Or.inl he
             · exact Or.inr ⟨by simp, by simp⟩
             · exact Or.inr ⟨by simp, by simp⟩)
          | exact Or.inl he
      · exact ih hf h
    | throwAB => cases h; exact fun e he => Or.inl he
    | throw e => cases h; exact fun e he => Or.inl he
    | addPre x =>
      simp only [runActs] at h
      split at h
      · cases h; exact fun e he => Or.inl he
      · exact ih (s := { s with pre := s.pre ++ [x] }) hf h
    | addPost x =>
      simp only [runActs] at h
      split at h
      · cases h; exact fun e he => Or.inl he
      · exact ih (s := { s with post := s.post ++ [x] }) hf h
    | clear => cases h; exact fun e he => Or.inl he

theorem runHooks_quiet {bodies nested} (hn : Nested nested) {w site t} (hs : List Nat) {b : Bool} (hb : b = true → ∀ x, Sound (bodies x))
    {s s' : State} {o : Out} (hf : s.flag = false) (h : runHooks bodies nested w site t hs s = (o, s')) : ∀ e ∈ s'.log, e ∈ s.log ∨ Quiet b e := by
  induction hs generalizing s with
  | nil => cases h; exact fun e he => Or.inl he
  | cons x hs ih =>
    simp only [runHooks, hf, Bool.false_eq_true, if_false] at h
    generalize hr : runActs nested w site t (bodies x) { s with flag := true, log := s.log ++ [.call x site t] } = r at h
    obtain ⟨o1, s1⟩ := r
    have hfl := runActs_flag hn (bodies x) rfl hr
    have hq : ∀ e ∈ s1.log, e ∈ s.log ∨ Quiet b e := by
      intro e he
      rcases runActs_quiet hn (bodies x) (fun hb' => hb hb' x) rfl hr e he with h1 | h1
      · simp only [List.mem_append, List.mem_singleton] at h1
        rcases h1 with h1 | rfl
        · exact Or.inl h1
        · exact Or.inr ⟨by simp, by simp⟩
      · exact Or.inr h1
    cases o1 with
    | ret =>
      simp only [hfl, if_true] at h
      intro e he
      rcases ih rfl h e he with h1 | h1
      · exact hq e h1
      · exact Or.inr h1
    | threw e => simp only [hfl, if_true] at h; cases h; exact hq
    | died => simp only at h; cases h; exact hq
    | ub => simp only at h; cases h; exact hq

theorem fail_quiet {bodies nested} (hn : Nested nested) {site t} {b : Bool} (hb : b = true → ∀ x, Sound (bodies x)) {s s' : State} {o : Out}
    (hf : s.flag = false) (h : fail bodies nested site t s = (o, s')) : ∀ e ∈ s'.log, e ∈ s.log ∨ Quiet b e := by
  simp only [fail, hf, Bool.false_eq_true, if_false] at h
  generalize hr : runHooks bodies nested .pre site t s.pre s = r at h
  obtain ⟨o1, s1⟩ := r
  have hfl := runHooks_flag hn s.pre hf hr
  have hq := runHooks_quiet hn s.pre hb hf hr
  cases o1 <;> simp only at h
  · have hf1 := hfl (Or.inl rfl)
    simp only [failTail, State.emit, hf1, Bool.false_eq_true, if_false] at h
    generalize hr2 : runHooks bodies nested .post site t s1.post { s1 with flag := false, log := s1.log ++ [.banner site t] } = r2 at h
    obtain ⟨o2, s2⟩ := r2
    have hq2 := runHooks_quiet (s := { s1 with flag := false, log := s1.log ++ [.banner site t] }) hn s1.post hb rfl hr2
    have hs2 : s' = s2 := by cases o2 <;> cases h <;> rfl
    subst hs2
    intro e he
    rcases hq2 e he with h1 | h1
    · simp only [List.mem_append, List.mem_singleton] at h1
      rcases h1 with h1 | rfl
      · exact hq e h1
      · exact Or.inr ⟨by simp, by simp⟩
    · exact Or.inr h1
  · cases h; exact hq
  · cases h; exact hq
  · cases h; exact hq

end Verif.Assert
