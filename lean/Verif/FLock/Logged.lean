import Verif.FLock.Lemmas

namespace Verif.FLock

/-- What can be told from the log about how runs ended. -/
structure Logged (s : State) : Prop where
  began : ∀ r, (s.runs r).main ≠ .fresh → .began r (s.runs r).mode (s.runs r).start (s.runs r).wait ∈ s.log
  once : ∀ r m t w, .began r m t w ∈ s.log → (s.runs r).main ≠ .fresh ∧ m = (s.runs r).mode ∧ t = (s.runs r).start ∧ w = (s.runs r).wait
  exitedDone : ∀ r c, .exited r c ∈ s.log → (s.runs r).main = .done ∧ (s.runs r).cmd = false
  ended : ∀ r c, .exited r c ∈ s.log → .cmdStart r ∈ s.log → ∃ st, .cmdEnd r st ∈ s.log ∧ c = exitCode (.status st)
  zero : ∀ r, .exited r 0 ∈ s.log → (s.runs r).mode = .command → .cmdStart r ∈ s.log
  gaveUp : ∀ r now, .gaveUp r now ∈ s.log → .exited r 1 ∈ s.log ∧ .cmdStart r ∉ s.log ∧ .success r ∉ s.log ∧ ∃ w, (s.runs r).wait = some w ∧ (s.runs r).start + w ≤ now
  cmdMode : ∀ r, .cmdStart r ∈ s.log → (s.runs r).mode = .command ∧ ((s.runs r).main = .locked ∨ (s.runs r).main = .done)
  running : ∀ r, (s.runs r).cmd = true → .cmdStart r ∈ s.log
  cmdOver : ∀ r st, .cmdEnd r st ∈ s.log → (s.runs r).main = .done

theorem logged_init : Logged {} := by
  constructor <;> intros <;> simp_all

theorem logged_answered {s : State} (hi : Inv s) (h : Logged s) (r : Nat) (ans : Ans) (now : Int) (hw : (s.runs r).main = .waiting) : Logged (s.answered r ans now) := by
  obtain ⟨h1, h2, h3, h4, h5, h6, h7, h8, h9⟩ := h
  have f9 := hi.fresh r (.inr hw)
  have f7 := hi.success r
  unfold State.answered
  generalize hA : tryOnce ans (s.runs r).start now (s.runs r).wait = A
  cases A with
  | got =>
    simp only [State.set]
    constructor <;> intro r' <;> by_cases hr : r' = r <;> grind
  | gaveUp =>
    obtain ⟨v, hv, hle⟩ := tryOnce_gaveUp hA
    simp only [State.exits, State.settle, State.say, State.set]; split <;> constructor <;> intro r' <;> by_cases hr : r' = r <;> grind
  | died => simp only [State.exits, State.settle, State.say, State.set]; split <;> constructor <;> intro r' <;> by_cases hr : r' = r <;> grind
  | again => exact ⟨h1, h2, h3, h4, h5, h6, h7, h8, h9⟩

set_option maxHeartbeats 4000000 in
theorem logged_step {s : State} (hi : Inv s) (h : Logged s) (m : Move) : Logged (step s m) := by
  cases m with
  | attempt r now =>
    simp only [step]
    split
    · exact h
    · exact logged_answered hi h r _ now (by simp_all)
  | attemptFails r now =>
    simp only [step]
    split
    · exact h
    · exact logged_answered hi h r _ now (by simp_all)
  | _ =>
    all_goals
      obtain ⟨h1, h2, h3, h4, h5, h6, h7, h8, h9⟩ := h
      have i1 := hi.cmd
      have i7 := hi.success
      have i9 := hi.fresh
      have i11 := hi.modes
      have hz : exitCode .notStarted ≠ 0 := by decide
      simp only [step, State.exits, State.childEnds, State.settle, State.say, State.set]
      repeat' split
      all_goals constructor <;> intro r' <;> grind

theorem inv_run {s : State} (hi : Inv s) (h : Logged s) (ms : List Move) : Inv (run s ms) ∧ Logged (run s ms) := by
  induction ms generalizing s with
  | nil => exact ⟨hi, h⟩
  | cons m ms ih => exact ih (inv_step hi m) (logged_step hi h m)

end Verif.FLock
