import Verif.Assert.Lemmas

/-! # C101: failed assertions -/

namespace Verif.Assert
open Spec

/-- An assertion in a hook never calls hooks, so two levels are all there are. -/
theorem failed_levels (bodies : Nat → List Act) (k : Nat) (site : Site) (m : Msg) (s : State) :
    failed bodies (k + 2) site m s = failed bodies 2 site m s :=
  macroFail_congr (nested_failed bodies k) (nested_failed bodies 0) s

theorem fail_calm {bodies nested site t} {s : State} (hf : s.flag = false) (hpre : ∀ h ∈ s.pre, Calm (bodies h)) (hpost : ∀ h ∈ s.post, Calm (bodies h)) :
    fail bodies nested site t s = (.died, { s with log := s.log ++ calls bodies site t s.pre ++ [.banner site t] ++ calls bodies site t s.post }) := by
  have e1 := runHooks_calm (nested := nested) (w := .pre) (site := site) (t := t) hpre [] hf
  rw [List.append_nil] at e1
  simp only [fail, hf, Bool.false_eq_true, if_false, e1, runHooks, failTail, State.emit]
  have e2 := runHooks_calm (nested := nested) (w := .post) (site := site) (t := t) hpost []
    (s := { s with flag := false, log := s.log ++ calls bodies site t s.pre ++ [.banner site t] }) rfl
  rw [List.append_nil] at e2
  rw [e2]
  simp [runHooks]

/-- A message that can be shown leads to `AssertBoostFail` with that text, unless a hook throws. -/
theorem macroFail_shown {bodies nested site m t} {s : State} (hm : shown m = some t) {r : Out × State} (h : fail bodies nested site t s = r)
    (hr : ∀ s', r ≠ (.threw .std, s')) : macroFail bodies nested site m s = r := by
  obtain ⟨o, s'⟩ := r
  cases m <;> simp only [shown, Option.some.injEq, reduceCtorEq] at hm <;> subst hm <;> simp only [macroFail, Msg.text, h] <;>
    (split
     · next heq => cases heq; exact absurd rfl (hr _)
     · rfl)

/-- C101. An assertion that holds does nothing. One that fails never goes on: the program dies or an exception leaves the macro (or a hook changed the
list of hooks under the loop); an exception leaves everything ready for the next failure. -/
theorem invariant_outcome (bodies : Nat → List Act) (site : Site) (m : Msg) {s : State} (hf : s.flag = false) :
    invariant bodies true site m s = (.ret, s) ∧
    ∃ o s', invariant bodies false site m s = (o, s') ∧ o ≠ .ret ∧ ((∃ e, o = .threw e) → s'.flag = false) := by
  refine ⟨rfl, _, _, rfl, ?_⟩
  obtain ⟨a, b, _⟩ := macroFail_out (nested_failed bodies 0) (site := site) (m := m) hf rfl
  exact ⟨a, b⟩

/-- C101. With hooks that only write, the hooks registered for before are called once each in order of registration, then the message is
printed, then the hooks registered for after are called once each in order, all with the same site and text; then the program dies. -/
theorem hooks_in_order (bodies : Nat → List Act) (site : Site) (m : Msg) {t : Text} (hm : shown m = some t) {s : State} (hf : s.flag = false)
    (hpre : ∀ h ∈ s.pre, Calm (bodies h)) (hpost : ∀ h ∈ s.post, Calm (bodies h)) :
    invariant bodies false site m s =
      (.died, { s with log := s.log ++ calls bodies site t s.pre ++ [.banner site t] ++ calls bodies site t s.post }) :=
  macroFail_shown hm (fail_calm hf hpre hpost) (by simp)

example : invariant (fun h => [.say (10 * h), .say h]) false 7 (.format 3) { pre := [1, 2], post := [3], flag := false, log := [] } =
    (.died, { pre := [1, 2], post := [3], flag := false, log := [.call 1 7 (.given 3), .said 10, .said 1, .call 2 7 (.given 3), .said 20, .said 2, .banner 7 (.given 3),
      .call 3 7 (.given 3), .said 30, .said 3] }) := by decide +kernel

/-- C101. If evaluating the message throws something that is not a `std::exception`, that leaves the macro and no hook is called. -/
theorem message_throws (bodies : Nat → List Act) (site : Site) (s : State) : invariant bodies false site .throwsOther s = (.threw .other, s) := rfl

/-- What the body of a throwing hook ends with: `e` when called with `site` and `t`. -/
def Throws (site : Site) (t : Text) (e : Exc) (a : Act) : Prop := a = .throw e ∨ (a = .throwAB ∧ e = .ab site t)

theorem runActs_throws {nested w site t e a} (h : Throws site t e a) (rest : List Act) (s : State) :
    runActs nested w site t (a :: rest) s = (.threw e, s) := by
  rcases h with rfl | ⟨rfl, rfl⟩ <;> rfl

theorem runHooks_throws {bodies nested w site t e a} {hs rest : List Nat} {h : Nat} {c r : List Act} (hcalm : ∀ x ∈ hs, Calm (bodies x))
    (hb : bodies h = c ++ a :: r) (hc : Calm c) (ha : Throws site t e a) {s : State} (hf : s.flag = false) :
    runHooks bodies nested w site t (hs ++ h :: rest) s =
      (.threw e, { s with log := s.log ++ calls bodies site t hs ++ [.call h site t] ++ writes c }) := by
  rw [runHooks_calm hcalm _ hf]
  simp only [runHooks, hf, Bool.false_eq_true, if_false, hb, runActs_calm hc, runActs_throws ha, if_true]

/-- C101. A hook for before that throws (`AssertBoostThrowExceptionFn` makes an exception of the failure) ends it there: the hooks before it have been called,
those after it are not, nothing is printed, and the exception leaves the macro with everything as it was. -/
theorem throw_in_before (bodies : Nat → List Act) (site : Site) (m : Msg) {t : Text} (hm : shown m = some t) {s : State} (hf : s.flag = false)
    {hs rest : List Nat} {h : Nat} (hpre : s.pre = hs ++ h :: rest) (hcalm : ∀ x ∈ hs, Calm (bodies x)) {c r : List Act} {a : Act} {e : Exc}
    (hb : bodies h = c ++ a :: r) (hc : Calm c) (ha : Throws site t e a) (he : e ≠ .std) :
    invariant bodies false site m s =
      (.threw e, { s with log := s.log ++ calls bodies site t hs ++ [.call h site t] ++ writes c }) := by
  refine macroFail_shown hm ?_ (by simp [he])
  simp only [fail, hf, Bool.false_eq_true, if_false, hpre, runHooks_throws hcalm hb hc ha hf]

example : invariant (fun h => if h = 2 then [.say 5, .throwAB] else [.say h]) false 7 .formatTooFew { pre := [1, 2, 3], post := [], flag := false, log := [] } =
    (.threw (.ab 7 .tooFew), { pre := [1, 2, 3], post := [], flag := false, log := [.call 1 7 .tooFew, .said 1, .call 2 7 .tooFew, .said 5] }) := by decide +kernel

/-- C101. The same for a hook for after, once the message is printed. -/
theorem throw_in_after (bodies : Nat → List Act) (site : Site) (m : Msg) {t : Text} (hm : shown m = some t) {s : State} (hf : s.flag = false)
    {hs rest : List Nat} {h : Nat} (hpre : ∀ x ∈ s.pre, Calm (bodies x)) (hpost : s.post = hs ++ h :: rest) (hcalm : ∀ x ∈ hs, Calm (bodies x))
    {c r : List Act} {a : Act} {e : Exc} (hb : bodies h = c ++ a :: r) (hc : Calm c) (ha : Throws site t e a) (he : e ≠ .std) :
    invariant bodies false site m s =
      (.threw e, { s with log := s.log ++ calls bodies site t s.pre ++ [.banner site t] ++ calls bodies site t hs ++ [.call h site t] ++ writes c }) := by
  refine macroFail_shown hm ?_ (by simp [he])
  have e1 := runHooks_calm (nested := failed bodies 1) (w := .pre) (site := site) (t := t) hpre [] hf
  rw [List.append_nil] at e1
  simp only [fail, hf, Bool.false_eq_true, if_false, e1, runHooks, failTail, State.emit, hpost]
  rw [runHooks_throws hcalm hb hc ha (s := { s with post := hs ++ h :: rest, flag := false, log := s.log ++ calls bodies site t s.pre ++ [.banner site t] }) rfl]

example : (invariant (fun h => if h = 2 then [.say 5, .throw .other] else [.say h]) false 7 .throwsStd { pre := [1], post := [3, 2, 1], flag := false, log := [] }) =
    (.threw .other, { pre := [1], post := [3, 2, 1], flag := false, log := [.call 1 7 .evaluating, .said 1, .banner 7 .evaluating, .call 3 7 .evaluating, .said 3,
      .call 2 7 .evaluating, .said 5] }) := by decide +kernel

/-- C101 (violation). A hook that throws another `std::exception` is taken for a message that could not be evaluated: it and all hooks before it are
called a second time, with another text. -/
theorem throw_std_called_twice (bodies : Nat → List Act) (site : Site) (m : Msg) {t : Text} (hm : shown m = some t) (hne : m ≠ .throwsStd)
    {s : State} (hf : s.flag = false) {hs rest : List Nat} {h : Nat} (hpre : s.pre = hs ++ h :: rest) (hcalm : ∀ x ∈ hs, Calm (bodies x))
    {c r : List Act} (hb : bodies h = c ++ .throw .std :: r) (hc : Calm c) :
    invariant bodies false site m s =
      (.threw .std, { s with log := s.log ++ calls bodies site t hs ++ [.call h site t] ++ writes c ++ calls bodies site .evaluating hs ++ [.call h site .evaluating] ++ writes c }) := by
  have key : ∀ (t : Text) (s : State), s.flag = false → s.pre = hs ++ h :: rest → fail bodies (failed bodies 1) site t s =
      (.threw .std, { s with log := s.log ++ calls bodies site t hs ++ [.call h site t] ++ writes c }) := by
    intro t s hf hpre
    simp only [fail, hf, Bool.false_eq_true, if_false, hpre, runHooks_throws hcalm hb hc (Or.inl rfl) hf]
  have h2 : m.text = .ok t := by
    cases m <;> simp only [shown, Option.some.injEq, reduceCtorEq] at hm <;> subst hm <;> first | rfl | exact absurd rfl hne
  show macroFail bodies (failed bodies 1) site m s = _
  simp only [macroFail, h2, key t s hf hpre]
  exact key .evaluating { s with log := s.log ++ calls bodies site t hs ++ [.call h site t] ++ writes c } hf hpre

example : (invariant (fun h => if h = 2 then [.say 5, .throw .std] else [.say h]) false 7 (.str 3) { pre := [1, 2], post := [], flag := false, log := [] }).2.log =
    [.call 1 7 (.given 3), .said 1, .call 2 7 (.given 3), .said 5, .call 1 7 .evaluating, .said 1, .call 2 7 .evaluating, .said 5] := by decide +kernel

/-- C101. An assertion that fails inside a hook kills the program at once: it is reported as recursion, its own message is printed, and no further hook
is called. -/
theorem failing_hook_dies (bodies : Nat → List Act) (site : Site) (m : Msg) {t : Text} (hm : shown m = some t) {s : State} (hf : s.flag = false)
    {hs rest : List Nat} {h : Nat} (hpre : s.pre = hs ++ h :: rest) (hcalm : ∀ x ∈ hs, Calm (bodies x)) {c r : List Act} {si : Site} {m' : Msg} {t' : Text}
    (hb : bodies h = c ++ .check false si m' :: r) (hc : Calm c) (hm' : shown m' = some t') :
    ∃ s', invariant bodies false site m s = (.died, s') ∧
      s'.log = s.log ++ calls bodies site t hs ++ [.call h site t] ++ writes c ++ [.recursing si, .banner si t'] := by
  have hfl : ∀ s : State, flaggedResult si m' s = (.died, (s.emit (.recursing si)).emit (.banner si t')) := by
    intro s
    cases m' <;> simp only [shown, Option.some.injEq, reduceCtorEq] at hm' <;> subst hm' <;> rfl
  refine ⟨_, macroFail_shown hm (r := (.died, { s with
    flag := true, log := s.log ++ calls bodies site t hs ++ [.call h site t] ++ writes c ++ [.recursing si, .banner si t'] })) ?_ (by simp), rfl⟩
  simp only [fail, hf, Bool.false_eq_true, if_false, hpre, runHooks_calm hcalm _ hf, runHooks, hb, runActs_calm hc, runActs]
  rw [nested_failed bodies 0 si m' _ rfl, hfl]
  cases s
  simp_all [State.emit]

example : (invariant (fun h => if h = 2 then [.say 5, .check true 8 (.str 0), .check false 9 (.str 4)] else [.say h]) false 7 (.str 3)
      { pre := [1, 2, 3], post := [1], flag := false, log := [] }).2.log =
    [.call 1 7 (.given 3), .said 1, .call 2 7 (.given 3), .said 5, .recursing 9, .banner 9 (.given 4)] := by decide +kernel

/-- C101 (violation). A hook that registers a hook for the list being gone through, or clears the lists, changes a vector under an iterator. -/
theorem registering_hook_undefined (site : Site) (n : Nat) :
    (invariant (fun _ => [.addPre 2]) false site (.str n) { pre := [1], post := [], flag := false, log := [] }).1 = .ub ∧
    (invariant (fun _ => [.clear]) false site (.str n) { pre := [1], post := [], flag := false, log := [] }).1 = .ub := ⟨rfl, rfl⟩

theorem befores_snoc (ops : List Op) (o : Op) :
    befores (ops ++ [o]) = (match o with | .before h => befores ops ++ [h] | .clearFns => [] | _ => befores ops) := by
  simp only [befores, List.foldl_append, List.foldl_cons, List.foldl_nil]
  cases o <;> rfl

theorem afters_snoc (ops : List Op) (o : Op) :
    afters (ops ++ [o]) = (match o with | .after h => afters ops ++ [h] | .clearFns => [] | _ => afters ops) := by
  simp only [afters, List.foldl_append, List.foldl_cons, List.foldl_nil]
  cases o <;> rfl

/-- What is known after a history. -/
def Known (bodies : Nat → List Act) (ops : List Op) (s : State) : Prop :=
  s.flag = false ∧ ((∀ x, Leaves (bodies x)) → s.pre = befores ops ∧ s.post = afters ops) ∧ .badFlag ∉ s.log ∧
    ((∀ x, Sound (bodies x)) → ∀ si, .recursing si ∉ s.log)

theorem macroFail_quiet {bodies nested} (hn : Nested nested) {site m} {b : Bool} (hb : b = true → ∀ x, Sound (bodies x)) {s s' : State} {o : Out}
    (hf : s.flag = false) (h : macroFail bodies nested site m s = (o, s')) : ∀ e ∈ s'.log, e ∈ s.log ∨ Quiet b e := by
  unfold macroFail at h
  cases hm : m.text with
  | error e =>
    rw [hm] at h
    simp only at h
    split at h
    · next heq => cases heq; exact fail_quiet hn hb hf h
    · cases h; exact fun e he => Or.inl he
  | ok t =>
    rw [hm] at h
    simp only at h
    generalize hr : fail bodies nested site t s = r at h
    obtain ⟨o1, s1⟩ := r
    have hq := fail_quiet hn hb hf hr
    split at h
    · next heq =>
      cases heq
      have hf1 := (fail_out hn hf hr).2.1 ⟨_, rfl⟩
      intro e he
      rcases fail_quiet hn hb hf1 h e he with h1 | h1
      · exact hq e h1
      · exact Or.inr h1
    · cases h; exact hq

theorem known_run (bodies : Nat → List Act) (ops : List Op) : ∀ (done : List Op) (s s' : State), Known bodies done s → run bodies s ops = some s' →
    Known bodies (done ++ ops) s' := by
  induction ops with
  | nil => intro done s s' hk h; cases h; simpa using hk
  | cons o ops ih =>
    intro done s s' hk h
    have app : done ++ o :: ops = (done ++ [o]) ++ ops := by simp
    rw [app]
    obtain ⟨hf, hl, hb, hs⟩ := hk
    cases o with
    | before x => exact ih _ { s with pre := s.pre ++ [x] } _ ⟨hf, fun h => (by rw [befores_snoc, afters_snoc]; exact ⟨by simp [(hl h).1], (hl h).2⟩), hb, hs⟩ h
    | after x => exact ih _ { s with post := s.post ++ [x] } _ ⟨hf, fun h => (by rw [befores_snoc, afters_snoc]; exact ⟨(hl h).1, by simp [(hl h).2]⟩), hb, hs⟩ h
    | clearFns => exact ih _ { s with pre := [], post := [] } _ ⟨hf, fun h => (by rw [befores_snoc, afters_snoc]; exact ⟨rfl, rfl⟩), hb, hs⟩ h
    | check holds site m =>
      cases holds with
      | true => exact ih _ s s' ⟨hf, fun h => (by rw [befores_snoc, afters_snoc]; exact hl h), hb, hs⟩ h
      | false =>
        simp only [run] at h
        generalize hr : invariant bodies false site m s = r at h
        obtain ⟨o1, s1⟩ := r
        have hr' : macroFail bodies (failed bodies 1) site m s = (o1, s1) := hr
        obtain ⟨h1, h2, h3⟩ := macroFail_out (nested_failed bodies 0) hf hr'
        have hq := fun b hb => macroFail_quiet (nested_failed bodies 0) (b := b) hb hf hr'
        cases o1 with
        | ret => exact absurd rfl h1
        | died => cases h
        | ub => cases h
        | threw e =>
          refine ih _ s1 s' ⟨h2 ⟨_, rfl⟩, fun hL => ?_, fun hc => ?_, fun hS si hc => ?_⟩ h
          · rw [befores_snoc, afters_snoc]
            exact ⟨(h3 hL).1.trans (hl hL).1, (h3 hL).2.trans (hl hL).2⟩
          · rcases hq false (by simp) _ hc with h4 | h4
            · exact hb h4
            · exact h4.1 rfl
          · rcases hq true (fun _ => hS) _ hc with h4 | h4
            · exact hs hS si h4
            · exact h4.2 rfl si rfl

/-- C101. After any history of registrations and of assertions whose exceptions were caught, the next assertion fails like the first: the flag against recursion
is down; the hooks are those registered since the last clearing, in order, if hooks themselves register none; the complaint about the flag was never
printed, and the complaint about recursion only if some hook contains a failing assertion. -/
theorem history_known (bodies : Nat → List Act) (ops : List Op) {s : State} (h : run bodies {} ops = some s) :
    s.flag = false ∧ ((∀ x, Leaves (bodies x)) → s.pre = befores ops ∧ s.post = afters ops) ∧ .badFlag ∉ s.log ∧
      ((∀ x, Sound (bodies x)) → ∀ si, .recursing si ∉ s.log) := by
  have := known_run bodies ops [] {} s ⟨rfl, fun _ => ⟨rfl, rfl⟩, by simp, by simp⟩ h
  rw [List.nil_append] at this
  exact this

/-- C101. So a failure after such a history calls exactly the hooks registered since the last clearing. -/
theorem history_hooks_in_order (bodies : Nat → List Act) (hl : ∀ x, Leaves (bodies x)) (ops : List Op) {s : State} (h : run bodies {} ops = some s)
    (hcalm : ∀ x ∈ befores ops ++ afters ops, Calm (bodies x)) (site : Site) (m : Msg) {t : Text} (hm : shown m = some t) :
    ∃ s', invariant bodies false site m s = (.died, s') ∧
      s'.log = s.log ++ calls bodies site t (befores ops) ++ [.banner site t] ++ calls bodies site t (afters ops) := by
  obtain ⟨hf, hL, _, _⟩ := history_known bodies ops h
  obtain ⟨h1, h2⟩ := hL hl
  refine ⟨_, hooks_in_order bodies site m hm hf (fun x hx => hcalm x (by simp [h1 ▸ hx])) (fun x hx => hcalm x (by simp [h2 ▸ hx])), ?_⟩
  simp [h1, h2]

-- a failure is caught, the throwing hook cleared, two others registered
example : ∃ s, run (fun h => if h = 0 then [.say 9, .throwAB] else [.say h]) {}
    [.before 0, .check false 1 (.str 1), .check true 2 (.str 2), .clearFns, .after 4, .before 5] = some s ∧ s.pre = [5] ∧ s.post = [4] ∧
      s.log = [.call 0 1 (.given 1), .said 9] := ⟨_, rfl, rfl, rfl, rfl⟩

end Verif.Assert
