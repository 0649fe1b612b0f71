import Verif.Assert.Spec

/-!
# The macros that test for failed assertions, `include/Lintel/TestUtil.hpp:21-60` (C149)

On top of the model of failed assertions (`Verif/Assert`). The code under test is a list of assertions.
-/

namespace Verif.TestUtil.Macro
open Verif.Assert

/-- An assertion in the code under test. Used in the model of `TestUtil.hpp:24-37` (`tried`). -/
structure Check where
  holds : Bool
  site : Site
  msg : Msg
deriving DecidableEq, Repr

/-- The code runs to its end or to the first assertion that does not return. Used in the model of `TestUtil.hpp:24-37` (`tried`). -/
def runCode (bodies : Nat → List Act) : List Check → State → Out × State
  | [], s => (.ret, s)
  | c :: cs, s =>
    match invariant bodies c.holds c.site c.msg s with
    | (.ret, s') => runCode bodies cs s'
    | r => r

/-- Texts and places of the macro's own two messages, and the hook `AssertBoostThrowExceptionFn`. Used in the model of `TestUtil.hpp:24-37` (`tried`). -/
structure Names where
  hook : Nat
  none : Nat        -- "no invariant happened"
  unexpected : Nat  -- "unexpected error message '%s'"
  site1 : Site
  site2 : Site

/-- `TEST_INVARIANT_MSGVEC`, `TestUtil.hpp:24-37`: the part inside `try`. -/
def tried (bodies : Nat → List Act) (n : Names) (code : List Check) (s : State) : Out × State :=
  match runCode bodies code { s with pre := s.pre ++ [n.hook] } with
  | (.ret, s2) => failed bodies 2 n.site1 (.str n.none) s2
  | r => r

/-- `TEST_INVARIANT_MSGVEC`, `TestUtil.hpp:24-37`: with the `catch`. -/
def testInvariant (bodies : Nat → List Act) (n : Names) (code : List Check) (msgs : List Text) (s : State) : Out × State :=
  match tried bodies n code s with
  | (.threw (.ab _ t), s3) => invariant bodies (msgs.contains t) n.site2 (.format n.unexpected) { s3 with pre := [], post := [] }
  | r => r

/-! ## What it should do -/

/-- The first assertion that fails. Made of the parts of `TestUtil.hpp:24-37`. -/
def firstFailure (code : List Check) : Option Check := code.find? (fun c => !c.holds)

/-- A program that has set up no hooks, as the macro asks for. -/
def Clean (s : State) : Prop := s.pre = [] ∧ s.post = [] ∧ s.flag = false

theorem invariant_throws (bodies : Nat → List Act) (h : Nat) (hb : bodies h = [.throwAB]) (site : Site) (m : Msg) (t : Text) (hm : Spec.shown m = some t)
    (s : State) (h1 : s.pre = [h]) (h3 : s.flag = false) :
    ∃ s', failed bodies 2 site m s = (.threw (.ab site t), s') ∧ s'.flag = false := by
  have hf : ∀ (nested : Site → Msg → State → Out × State) (t : Text), ∃ s', fail bodies nested site t s = (.threw (.ab site t), s') ∧ s'.flag = false := by
    intro nested t
    refine ⟨{ s with flag := false, log := s.log ++ [.call h site t] }, ?_, rfl⟩
    unfold fail
    rw [if_neg (by simp [h3]), h1]
    simp [runHooks, h3, hb, runActs]
    exact h1
  unfold failed macroFail
  cases m with
  | str k => cases hm; obtain ⟨s', e1, e2⟩ := hf (failed bodies 1) (.given k); exact ⟨s', by simp only [Msg.text]; rw [e1], e2⟩
  | format k => cases hm; obtain ⟨s', e1, e2⟩ := hf (failed bodies 1) (.given k); exact ⟨s', by simp only [Msg.text]; rw [e1], e2⟩
  | formatTooMany => cases hm; obtain ⟨s', e1, e2⟩ := hf (failed bodies 1) .tooMany; exact ⟨s', by simp only [Msg.text]; rw [e1], e2⟩
  | formatTooFew => cases hm; obtain ⟨s', e1, e2⟩ := hf (failed bodies 1) .tooFew; exact ⟨s', by simp only [Msg.text]; rw [e1], e2⟩
  | formatThrows => cases hm; obtain ⟨s', e1, e2⟩ := hf (failed bodies 1) .unknown; exact ⟨s', by simp only [Msg.text]; rw [e1], e2⟩
  | throwsStd => cases hm; obtain ⟨s', e1, e2⟩ := hf (failed bodies 1) .evaluating; exact ⟨s', by simp only [Msg.text]; exact e1, e2⟩
  | throwsOther => cases hm

theorem failed_dies (bodies : Nat → List Act) (site : Site) (n : Nat) (s : State) (h : Clean s) : (failed bodies 2 site (.format n) s).1 = .died := by
  obtain ⟨h1, h2, h3⟩ := h
  unfold failed macroFail fail
  simp only [Msg.text]
  rw [if_neg (by simp [h3]), h1]
  simp only [runHooks]
  unfold failTail
  simp only [State.emit, h3, h2, runHooks]
  rfl

theorem runCode_first (bodies : Nat → List Act) (code : List Check) (s : State) :
    runCode bodies code s = match firstFailure code with
      | none => (.ret, s)
      | some c => match failed bodies 2 c.site c.msg s with
        | (.ret, s') => runCode bodies ((code.dropWhile (fun c => c.holds)).tail) s'
        | r => r := by
  induction code with
  | nil => rfl
  | cons c cs ih =>
    rw [runCode]
    by_cases hc : c.holds = true
    · rw [hc]
      simp only [invariant, if_true, firstFailure, List.find?_cons, hc, Bool.not_true, List.dropWhile_cons]
      exact ih
    · have hc' : c.holds = false := by simpa using hc
      rw [hc']
      simp only [invariant, Bool.false_eq_true, if_false, firstFailure, List.find?_cons, hc', Bool.not_false, List.dropWhile_cons, List.tail_cons]

/-- For a program that has set up no hooks: the test passes exactly if the first assertion of the code that fails says one of the texts. Otherwise the program dies. When the test has passed, there are
no hooks again, so the next test finds the same situation. It is required that nobody expects the macro's own text. -/
theorem testInvariant_partial (bodies : Nat → List Act) (n : Names) (hb : bodies n.hook = [.throwAB]) (code : List Check) (msgs : List Text) (s : State) (hs : Clean s)
    (hm : ∀ c ∈ code, c.holds = false → Spec.shown c.msg ≠ none) (hn : Text.given n.none ∉ msgs) :
    ((testInvariant bodies n code msgs s).1 = .ret ↔ ∃ c t, firstFailure code = some c ∧ Spec.shown c.msg = some t ∧ t ∈ msgs) ∧
      ((testInvariant bodies n code msgs s).1 = .ret ∨ (testInvariant bodies n code msgs s).1 = .died) ∧
      ((testInvariant bodies n code msgs s).1 = .ret → Clean (testInvariant bodies n code msgs s).2) := by
  obtain ⟨h1, h2, h3⟩ := hs
  -- after `tried`, an exception with text `t`
  have key : ∀ t site s3, tried bodies n code s = (.threw (.ab site t), s3) → s3.flag = false →
      ((testInvariant bodies n code msgs s).1 = .ret ↔ t ∈ msgs) ∧
      ((testInvariant bodies n code msgs s).1 = .ret ∨ (testInvariant bodies n code msgs s).1 = .died) ∧
      ((testInvariant bodies n code msgs s).1 = .ret → Clean (testInvariant bodies n code msgs s).2) := by
    intro t site s3 e hf
    have e2 : testInvariant bodies n code msgs s = invariant bodies (msgs.contains t) n.site2 (.format n.unexpected) { s3 with pre := [], post := [] } := by
      unfold testInvariant
      rw [e]
    rw [e2]
    by_cases ht : t ∈ msgs
    · rw [show msgs.contains t = true from by simpa using ht]
      exact ⟨⟨fun _ => ht, fun _ => rfl⟩, .inl rfl, fun _ => ⟨rfl, rfl, hf⟩⟩
    · rw [show msgs.contains t = false from by simpa using ht]
      have hd := failed_dies bodies n.site2 n.unexpected { s3 with pre := [], post := [] } ⟨rfl, rfl, hf⟩
      simp only [invariant, Bool.false_eq_true, if_false]
      rw [hd]
      exact ⟨⟨fun h => (by cases h), fun h => absurd h ht⟩, .inr rfl, fun h => by cases h⟩
  have hpre : ({ s with pre := s.pre ++ [n.hook] } : State).pre = [n.hook] := by simp [h1]
  cases hfst : firstFailure code with
  | none =>
    obtain ⟨s', e1, e2⟩ := invariant_throws bodies n.hook hb n.site1 (.str n.none) (.given n.none) rfl { s with pre := s.pre ++ [n.hook] } hpre h3
    have ht : tried bodies n code s = (.threw (.ab n.site1 (.given n.none)), s') := by
      unfold tried
      rw [runCode_first, hfst]
      exact e1
    obtain ⟨k1, k2, k3⟩ := key _ _ _ ht e2
    refine ⟨?_, k2, k3⟩
    rw [k1]
    constructor
    · intro h; exact absurd h hn
    · rintro ⟨c, t, h, _⟩; cases h
  | some c =>
    have hc := List.mem_of_find?_eq_some hfst
    have hh : c.holds = false := by
      have := List.find?_some hfst
      simpa using this
    cases hsh : Spec.shown c.msg with
    | none => exact absurd hsh (hm c hc hh)
    | some t =>
      obtain ⟨s', e1, e2⟩ := invariant_throws bodies n.hook hb c.site c.msg t hsh { s with pre := s.pre ++ [n.hook] } hpre h3
      have ht : tried bodies n code s = (.threw (.ab c.site t), s') := by
        unfold tried
        rw [runCode_first, hfst]
        simp only [e1]
      obtain ⟨k1, k2, k3⟩ := key _ _ _ ht e2
      refine ⟨?_, k2, k3⟩
      rw [k1]
      constructor
      · intro h; exact ⟨c, t, rfl, hsh, h⟩
      · rintro ⟨c', t', h, h', h''⟩
        cases h
        rw [hsh] at h'
        cases h'
        exact h''

/-- Names for the examples. Made of the parts of `TestUtil.hpp:24-37`. -/
def names : Names := ⟨0, 100, 101, 50, 51⟩
/-- Part of the model of `TestUtil.hpp:24-37`. -/
def hookBody : Nat → List Act := fun _ => [.throwAB]

example : hookBody names.hook = [.throwAB] ∧ Clean {} ∧ Text.given names.none ∉ [Text.given 7, .given 8] ∧
    (testInvariant hookBody names [⟨true, 1, .str 6⟩, ⟨false, 2, .format 7⟩, ⟨false, 3, .str 9⟩] [.given 7, .given 8] {}).1 = .ret ∧
    (testInvariant hookBody names [⟨true, 1, .str 6⟩, ⟨false, 3, .str 9⟩] [.given 7, .given 8] {}).1 = .died ∧
    (testInvariant hookBody names [⟨true, 1, .str 6⟩] [.given 7, .given 8] {}).1 = .died := by
  refine ⟨rfl, ⟨rfl, rfl, rfl⟩, by decide, by decide, by decide, by decide⟩

/-- Code in which nothing fails passes the test if the macro's own text is among the ones expected: the macro catches its own failure. -/
theorem own_text_false : ∃ (code : List Check) (msgs : List Text), firstFailure code = none ∧ (testInvariant hookBody names code msgs {}).1 = .ret :=
  ⟨[⟨true, 1, .str 6⟩], [.given names.none], by decide, by decide⟩

/-- If another exception leaves the code, the hook stays: a later assertion that fails throws instead of ending the program. -/
theorem hook_stays_false : ∃ (code : List Check) (s' : State), testInvariant hookBody names code [.given 7] {} = (.threw .other, s') ∧
    s'.pre = [names.hook] ∧ (invariant hookBody false 9 (.str 1) s').1 = .threw (.ab 9 (.given 1)) :=
  ⟨[⟨false, 2, .throwsOther⟩], { pre := [names.hook] }, by decide, rfl, by decide⟩

end Verif.TestUtil.Macro
