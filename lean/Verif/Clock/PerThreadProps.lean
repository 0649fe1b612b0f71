import Verif.Clock.PerThread

/-! # C209: one clock for each thread -/

namespace Verif.Clock.PerThread

/-! ## The specification, over what can be seen (newest first) -/

/-- What the thread got since it began. -/
def has : List Ev → Nat → Option Obj
  | [], _ => none
  | .got u o :: l, t => if u = t then some o else has l t
  | .exit u :: l, t => if u = t then none else has l t

/-- A thread gets clocks, and always the same one; its first one was never given to anybody before. -/
def Good : List Ev → Prop
  | [] => True
  | .got t o :: l => Good l ∧ (∃ n, o = .clock n) ∧ (match has l t with | some o' => o = o' | none => ∀ u, .got u o ∉ l)
  | .exit _ :: l => Good l

/-- `perThread` is only called after `perThreadInit` is done. -/
def Ready (ops : List Op) : Prop := ∀ a t b, ops = a ++ .perThread t :: b → 3 ≤ a.count .init

/-! ## Proof -/

structure Inv (n : Nat) (s : State) (log : List Ev) : Prop where
  phase : s.phase = if n ≤ 3 then n else 3
  key : 2 ≤ s.phase → s.key < s.nkeys
  cal : 3 ≤ s.phase → s.calibrated = true
  early : s.phase < 3 → ∀ u o, .got u o ∉ log
  /-- nobody uses a key that was not made -/
  free : ∀ t k, s.nkeys ≤ k → s.vals t k = none
  has : 2 ≤ s.phase → ∀ t, s.vals t s.key = PerThread.has log t
  old : ∀ u o, .got u o ∈ log → ∃ n, o = .clock n ∧ n < s.made
  good : Good log

theorem has_mem (log : List Ev) (t : Nat) (o : Obj) (h : has log t = some o) : .got t o ∈ log := by
  induction log with
  | nil => cases h
  | cons e l ih =>
    cases e with
    | got u p =>
      unfold has at h
      split at h
      · rename_i e; obtain rfl := Option.some.inj h; subst e; simp
      · exact List.mem_cons_of_mem _ (ih h)
    | exit u =>
      unfold has at h
      split at h
      · cases h
      · exact List.mem_cons_of_mem _ (ih h)

theorem has_none (log : List Ev) (h : ∀ u o, Ev.got u o ∉ log) (t : Nat) : has log t = none := by
  cases hh : has log t with
  | none => rfl
  | some o => exact absurd (has_mem log t o hh) (h t o)

theorem inv_step {n : Nat} {s : State} {log : List Ev} (h : Inv n s log) (o : Op) (ho : ∀ t, o = .perThread t → 3 ≤ n) :
    ∃ s' log', step s log o = .ok (s', log') ∧ Inv (n + if o = .init then 1 else 0) s' log' := by
  cases o with
  | init =>
    refine ⟨_, _, rfl, ?_⟩
    simp only [if_true]
    have hp := h.phase
    unfold initStep
    match hm : s.phase with
    | 0 =>
      have hn : n = 0 := by rw [hm] at hp; split at hp <;> omega
      subst hn
      exact ⟨rfl, by simp, by simp, fun _ => h.early (by omega), h.free, by simp, h.old, h.good⟩
    | 1 =>
      have hn : n = 1 := by rw [hm] at hp; split at hp <;> omega
      subst hn
      refine ⟨rfl, by simp, by simp, fun _ => h.early (by omega), fun t k hk => h.free t k (by simp at hk; omega), ?_, h.old, h.good⟩
      intro _ t
      show s.vals t s.nkeys = _
      rw [h.free t s.nkeys (Nat.le_refl _), has_none log (h.early (by omega))]
    | 2 =>
      have hn : n = 2 := by rw [hm] at hp; split at hp <;> omega
      subst hn
      exact ⟨rfl, fun _ => h.key (by omega), by simp, by simp, h.free, fun _ => h.has (by omega), h.old, h.good⟩
    | k + 3 =>
      have hn : 3 ≤ n := by rw [hm] at hp; split at hp <;> omega
      refine ⟨?_, h.key, h.cal, h.early, h.free, h.has, h.old, h.good⟩
      show s.phase = _
      rw [hp]; split <;> split <;> omega
  | calibrate => exact ⟨_, _, rfl, h.phase, h.key, fun _ => rfl, h.early, h.free, h.has, h.old, h.good⟩
  | perThread t =>
    have hn := ho t rfl
    have hp : s.phase = 3 := by have := h.phase; split at this <;> omega
    have hk := h.key (by omega)
    have hh := h.has (by omega) t
    cases hv : s.vals t s.key with
    | some o =>
      refine ⟨s, .got t o :: log, by simp [step, perThread, hk, hv], ?_⟩
      rw [hv] at hh
      obtain ⟨m, rfl, hm⟩ := h.old t o (has_mem log t o hh.symm)
      refine ⟨h.phase, h.key, h.cal, fun hl => absurd hl (by omega), h.free, fun _ u => ?_, ?_, ⟨h.good, ⟨m, rfl⟩, by rw [← hh]⟩⟩
      · rw [h.has (by omega) u]
        by_cases hu : t = u
        · subst hu; simp [PerThread.has, ← hh]
        · simp [PerThread.has, hu]
      · intro u p hpm
        rcases List.mem_cons.mp hpm with e | e
        · cases e; exact ⟨m, rfl, hm⟩
        · exact h.old u p e
    | none =>
      rw [hv] at hh
      refine ⟨_, .got t (.clock s.made) :: log, by simp [step, perThread, hk, hv, hp, h.cal (by omega)]; rfl, ?_⟩
      refine ⟨hp.symm.trans h.phase, fun _ => hk, fun _ => rfl, fun hl => absurd hl (by simp), ?_, fun _ u => ?_, ?_, ⟨h.good, ⟨s.made, rfl⟩, ?_⟩⟩
      · intro u k hkk
        have : k ≠ s.key := by simp at hkk; omega
        simp [setVal, this]
        exact h.free u k hkk
      · simp only [setVal, PerThread.has, and_true]
        by_cases hu : t = u
        · subst hu; simp
        · rw [if_neg (Ne.symm hu), if_neg hu]; exact h.has (by omega) u
      · intro u p hpm
        rcases List.mem_cons.mp hpm with e | e
        · cases e; exact ⟨s.made, rfl, by simp⟩
        · obtain ⟨m, e1, e2⟩ := h.old u p e
          exact ⟨m, e1, by simp; omega⟩
      · rw [← hh]
        intro u hu
        obtain ⟨m, e1, e2⟩ := h.old u _ hu
        cases e1
        omega
  | exit t =>
    refine ⟨_, _, rfl, h.phase, h.key, h.cal, fun hl u o => by simpa using h.early hl u o, ?_, fun h2 u => ?_, fun u o hu => h.old u o (by simpa using hu), h.good⟩
    · intro u k hk
      simp only
      split
      · rfl
      · exact h.free u k hk
    · simp only [PerThread.has]
      by_cases hu : t = u
      · subst hu; simp
      · rw [if_neg (Ne.symm hu), if_neg hu]; exact h.has h2 u
  | makeKey => exact ⟨_, _, rfl, h.phase, fun h2 => Nat.lt_succ_of_lt (h.key h2), h.cal, h.early, fun t k hk => h.free t k (by simp at hk; omega), h.has, h.old, h.good⟩
  | put t k n' =>
    simp only [step]
    split
    · rename_i hc
      refine ⟨_, _, rfl, h.phase, h.key, h.cal, h.early, ?_, fun h2 u => ?_, h.old, h.good⟩
      · intro u j hj
        have : j ≠ k := by have := hc.1; simp at hj; omega
        simp [setVal, this]
        exact h.free u j hj
      · have : s.key ≠ k := fun e => hc.2 ⟨h2, e.symm⟩
        simp only [setVal, this, and_false, if_false]
        exact h.has h2 u
    · exact ⟨_, _, rfl, h.phase, h.key, h.cal, h.early, h.free, h.has, h.old, h.good⟩

theorem inv_run (ops : List Op) : ∀ (n : Nat) (s : State) (log : List Ev), Inv n s log → (∀ a t b, ops = a ++ .perThread t :: b → 3 ≤ n + a.count .init) →
    ∃ s' log', run s log ops = .ok (s', log') ∧ Good log' := by
  induction ops with
  | nil => intro n s log h _; exact ⟨s, log, rfl, h.good⟩
  | cons o os ih =>
    intro n s log h hr
    obtain ⟨s', log', hs, hi⟩ := inv_step h o (fun t e => by have := hr [] t os (by rw [e]; rfl); simpa using this)
    unfold run
    rw [hs]
    refine ih _ s' log' hi fun a t b e => ?_
    have := hr (o :: a) t b (by rw [e]; rfl)
    rw [List.count_cons] at this
    by_cases hc : o = .init
    · simp [hc] at this ⊢; omega
    · simp [hc] at this ⊢; omega

/-- C209: if `perThread` is only called after `perThreadInit` has returned, no call fails, each thread gets one clock, always the same, and no other thread gets it, whatever keys other parts of the program use, and with threads beginning and ending. -/
theorem perThread_partial (ops : List Op) (h : Ready ops) : ∃ s log, run start [] ops = .ok (s, log) ∧ Good log := by
  refine inv_run ops 0 start [] ⟨rfl, ?_, ?_, ?_, ?_, ?_, ?_, trivial⟩ (by simpa [Ready] using h)
  · intro h; simp [start] at h
  · intro h; simp [start] at h
  · simp
  · intro t k _; rfl
  · intro h; simp [start] at h
  · intro u o hm; cases hm

/-- Two threads, one of which ends, and another key. -/
example : (run start [] [.makeKey, .put 1 0 7, .init, .init, .makeKey, .init, .perThread 1, .perThread 2, .perThread 1, .exit 1, .perThread 1]).map (·.2) =
    .ok [.got 1 (.clock 2), .exit 1, .got 1 (.clock 0), .got 2 (.clock 1), .got 1 (.clock 0)] := by decide

/-- C209, false of the code: without `perThreadInit` the message that it is needed is not sure to come: the key is 0, which may be somebody else's, and their object is taken for a clock. -/
theorem perThread_early_false : ∃ ops, Op.init ∉ ops ∧ (run start [] ops).map (·.2) = .ok [.got 1 (.other 7)] :=
  ⟨[.makeKey, .put 1 0 7, .perThread 1], by decide, by decide⟩

/-- C209, false of the code: and if there are no keys, asking for one is undefined. -/
theorem perThread_nokey_false (t : Nat) : run start [] [.perThread t] = .ub := rfl

/-- C209, false of the code: the check is of no use while another thread is in `perThreadInit`: a clock is stored under somebody else's key, and then the thread gets another. -/
theorem perThread_race_false : ∃ ops, (run start [] ops).map (·.2) = .ok [.got 1 (.clock 1), .got 1 (.clock 0)] :=
  ⟨[.makeKey, .calibrate, .init, .perThread 1, .init, .init, .perThread 1], by decide⟩

end Verif.Clock.PerThread
