import Verif.FLock.Spec

namespace Verif.FLock

structure Inv (s : State) : Prop where
  cmd : ∀ r, .cmdStart r ∈ s.log → (∀ st, .cmdEnd r st ∉ s.log) → (s.runs r).cmd = true
  cmdMain : ∀ r, (s.runs r).cmd = true → .mainKilled r ∉ s.log → (s.runs r).main = .locked
  locked : ∀ r, (s.runs r).main = .locked → s.owner = some r
  child : ∀ r, (s.runs r).child = true → s.owner = some r
  owner : ∀ r, s.owner = some r → (s.runs r).main = .locked ∨ (s.runs r).child = true
  forked : ∀ r, (s.runs r).forked = true → .unlocked r ∉ s.log → .childKilled r ∉ s.log → .misjudged r ∉ s.log → .callerGone r ∉ s.log → (s.runs r).child = true
  success : ∀ r, .success r ∈ s.log → (s.runs r).forked = true
  caller : ∀ r, (s.runs r).caller = false → .callerGone r ∈ s.log
  fresh : ∀ r, (s.runs r).main = .fresh ∨ (s.runs r).main = .waiting → (s.runs r).forked = false ∧ (s.runs r).cmd = false ∧ .cmdStart r ∉ s.log
  childForked : ∀ r, (s.runs r).child = true → (s.runs r).forked = true
  modes : ∀ r, ((s.runs r).cmd = true → (s.runs r).mode = .command) ∧ ((s.runs r).forked = true → (s.runs r).mode = .script)

theorem inv_init : Inv {} := by
  constructor <;> intros <;> simp_all

theorem tryOnce_gaveUp {ans : Ans} {a b : Int} {w : Option Int} (h : tryOnce ans a b w = .gaveUp) : ∃ v, w = some v ∧ a + v ≤ b := by
  cases w with
  | none => cases ans <;> simp [tryOnce, roundForever] at h
  | some v =>
    refine ⟨v, rfl, ?_⟩
    cases ans <;> simp [tryOnce, round, flockValue] at h <;> omega

theorem tryOnce_got {ans : Ans} {a b : Int} {w : Option Int} (h : tryOnce ans a b w = .got) : ans = .granted := by
  cases w <;> cases ans <;> simp [tryOnce, round, roundForever, flockValue] at h ⊢ <;> split at h <;> simp at h

theorem inv_answered {s : State} (h : Inv s) (r : Nat) (ans : Ans) (now : Int) (hw : (s.runs r).main = .waiting) (ha : ans = .granted → s.owner = none) : Inv (s.answered r ans now) := by
  obtain ⟨h1, h2, h3, h4, h5, h6, h7, h8, h9, h10, h11⟩ := h
  unfold State.answered
  generalize hA : tryOnce ans (s.runs r).start now (s.runs r).wait = A
  cases A with
  | got =>
    have := ha (tryOnce_got hA)
    simp only [State.set]
    constructor <;> intro r' <;> by_cases hr : r' = r <;> grind
  | gaveUp => simp only [State.exits, State.settle, State.say, State.set]; split <;> constructor <;> intro r' <;> by_cases hr : r' = r <;> grind
  | died => simp only [State.exits, State.settle, State.say, State.set]; split <;> constructor <;> intro r' <;> by_cases hr : r' = r <;> grind
  | again => exact ⟨h1, h2, h3, h4, h5, h6, h7, h8, h9, h10, h11⟩

set_option maxHeartbeats 4000000 in
theorem inv_step {s : State} (h : Inv s) (m : Move) : Inv (step s m) := by
  cases m with
  | attempt r now =>
    simp only [step]
    split
    · exact h
    · exact inv_answered h r _ now (by simp_all) (by intro hh; grind)
  | attemptFails r now =>
    simp only [step]
    split
    · exact h
    · exact inv_answered h r _ now (by simp_all) (by intro hh; cases hh)
  | _ =>
    all_goals
      obtain ⟨h1, h2, h3, h4, h5, h6, h7, h8, h9, h10, h11⟩ := h
      simp only [step, State.exits, State.childEnds, State.settle, State.say, State.set]
      repeat' split
      all_goals constructor <;> intro r' <;> grind

end Verif.FLock
