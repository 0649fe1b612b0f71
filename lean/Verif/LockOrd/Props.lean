import Verif.LockOrd.Lemmas

/-! # Properties of ordered scoped locks (C50) -/

namespace Verif.LockOrd

variable {L : Type} [LinearOrder L]

theorem chain_up {zero : L} {level : Nat → L} {s : State L} (hi : ∀ u, TInv zero level s u) {t u : Nat}
    (h : Relation.TransGen (WaitsFor s) t u) :
    ∃ c, (s.thr t).cur = some c ∧ ∀ m k, (s.thr u).wait = some (m, k) → ∃ c', (s.thr u).cur = some c' ∧ c < c' := by
  induction h with
  | single h => exact waits_up hi h
  | tail _ h ih =>
    obtain ⟨c, h1, h2⟩ := ih
    refine ⟨c, h1, fun m k hw => ?_⟩
    obtain ⟨m', k', hw', _⟩ := id h
    obtain ⟨c', h3, h4⟩ := h2 m' k' hw'
    obtain ⟨c2, h5, h6⟩ := waits_up hi h
    rw [h3] at h5
    cases h5
    obtain ⟨c3, h7, h8⟩ := h6 m k hw
    exact ⟨c3, h7, lt_trans h4 h8⟩

/-- **C50, partial.** Any number of threads and mutexes in one group, every schedule, scoped unlocks included: as long
as each mutex keeps its level and no scoped unlock is made of a lock that is already unlocked, there is no cycle of
threads waiting for each other. Missing for the full statement: scoped unlocks of locks that are already unlocked, for
which it is false (`unlocked_twice_deadlock`). -/
theorem no_deadlock_partial (zero : L) (level : Nat → L) (acts : List (Nat × Act L)) (hc : Consistent level acts)
    (hd : Disciplined zero initial acts) (s : State L) (h : run zero initial acts = .ok s) : ¬ Deadlock s := by
  have hi := tinv_run acts initial s (tinv_initial zero level) hc hd h
  rintro ⟨t, ht⟩
  obtain ⟨c, h1, h2⟩ := chain_up hi ht
  obtain ⟨u, ⟨m, k, hw, _⟩, _⟩ := Relation.TransGen.head'_iff.1 ht
  obtain ⟨c', h3, h4⟩ := h2 m k hw
  rw [h1] at h3
  cases h3
  exact lt_irrefl _ h4

/-- **C50, partial: the group moves on.** Whoever a thread waits for, following the chain of waits leads to a thread
that can go on. Missing for the full statement: as above. -/
theorem someone_can_move_partial (zero : L) (level : Nat → L) (acts : List (Nat × Act L)) (hc : Consistent level acts)
    (hd : Disciplined zero initial acts) (s : State L) (h : run zero initial acts = .ok s) (t : Nat) :
    ∃ u, Relation.ReflTransGen (WaitsFor s) t u ∧ CanMove s u := by
  classical
  have hi := tinv_run acts initial s (tinv_initial zero level) hc hd h
  by_contra hno
  have hblocked : ∀ u, Relation.ReflTransGen (WaitsFor s) t u → ∃ v, WaitsFor s u v := by
    intro u hu
    by_contra hb
    refine hno ⟨u, hu, fun m k hw => ?_⟩
    cases ho : s.owner m with
    | none => rfl
    | some v => exact absurd ⟨v, m, k, hw, ho⟩ hb
  -- all the threads on the chain have taken a step
  let R : Finset Nat := ((acts.map Prod.fst).toFinset).filter fun u => Relation.ReflTransGen (WaitsFor s) t u
  have hR : ∀ u, Relation.ReflTransGen (WaitsFor s) t u → u ∈ R := by
    intro u hu
    refine Finset.mem_filter.2 ⟨?_, hu⟩
    rw [List.mem_toFinset]
    by_contra hn
    obtain ⟨v, m, k, hw, _⟩ := hblocked u hu
    rw [idle_run acts initial s u (fun p hp e => hn (List.mem_map.2 ⟨p, hp, e⟩)) h] at hw
    cases hw
  have hne : R.Nonempty := ⟨t, hR t .refl⟩
  obtain ⟨u, hu, hmax⟩ := R.exists_max_image (fun u => ((s.thr u).cur).getD zero) hne
  have hru := (Finset.mem_filter.1 hu).2
  obtain ⟨v, hv⟩ := hblocked u hru
  obtain ⟨w, m, k, hw, _⟩ := hblocked v (hru.tail hv)
  obtain ⟨c, h1, h2⟩ := waits_up hi hv
  obtain ⟨c', h3, h4⟩ := h2 m k hw
  have := hmax v (hR v (hru.tail hv))
  simp only [h1, h3, Option.getD_some] at this
  exact absurd h4 (not_lt.2 this)

/-- Three threads that meet the hypotheses, with a scoped unlock, and two of them waiting. -/
example : let acts : List (Nat × Act Nat) := [(0, .prepare), (0, .lock 5 5), (0, .prepare), (0, .unlock 0), (1, .prepare),
      (1, .lock 5 5), (1, .prepare), (1, .lock 7 7), (1, .prepare), (0, .destroy), (2, .prepare), (2, .lock 7 7)]
    Consistent (fun m => m) acts ∧
      ∃ s, run 0 initial acts = .ok s ∧ s.owner 7 = some 1 ∧ WaitsFor s 0 1 ∧ WaitsFor s 2 1 ∧ CanMove s 1 := by
  refine ⟨?_, _, rfl, rfl, ⟨5, _, rfl, rfl⟩, ⟨7, _, rfl, rfl⟩, fun m k h => by cases h⟩
  intro t m lvl h
  show lvl = m
  simp at h
  omega

/-- The discipline holds of every program that makes no scoped unlock of a lock with a living one; for instance one
without scoped unlocks, or this one. -/
example : Disciplined 0 (initial : State Nat) [(0, .prepare), (0, .lock 5 5), (0, .prepare), (0, .unlock 0), (0, .destroy)] := by
  intro pre t i post s' e h
  match pre, e with
  | [], e => simp at e
  | [_], e => simp at e
  | [_, _], e => simp at e
  | [a, b, c], e =>
    simp only [List.cons_append, List.nil_append, List.cons.injEq, Prod.mk.injEq, Act.unlock.injEq] at e
    obtain ⟨rfl, rfl, rfl, ⟨rfl, rfl⟩, rfl⟩ := e
    cases h
    intro m lvl old hm
    simp [State.setThr, State.setOwner, initial] at hm
  | [_, _, _, _], e => simp at e
  | _ :: _ :: _ :: _ :: _ :: pre, e => simp at e

/-- **C50, violations are stopped.** In every reachable state, a thread that tries to lock at a level that is not above
all the mutexes it holds is aborted, before it waits. -/
theorem out_of_order_aborts_partial (zero : L) (level : Nat → L) (acts : List (Nat × Act L)) (hc : Consistent level acts)
    (hd : Disciplined zero initial acts) (s : State L) (h : run zero initial acts = .ok s) (t m m' : Nat) (lvl : L)
    (hw : (s.thr t).wait = none) (hown : s.owner m = some t) (hle : lvl ≤ level m) : step zero s t (.lock m' lvl) = .abort := by
  have hi := tinv_run acts initial s (tinv_initial zero level) hc hd h
  obtain ⟨e, he, rfl⟩ := ((hi t).owns m).1 hown
  have hr := rising_active (hi t).wf
  have hlvl := rising_level hr e he
  cases hcur : (s.thr t).cur with
  | none =>
    rw [((hi t).unprepared hcur).1] at he
    cases he
  | some c =>
    have hn : ¬ c < lvl := by
      rw [(hi t).settled hw c hcur, not_lt]
      rw [← hlvl] at hle
      exact le_trans hle (rising_le hr e he)
    unfold step
    simp only [hw, scopeDown, hcur, if_neg hn]

example : ∃ s, run 0 (initial : State Nat) [(0, .prepare), (0, .lock 5 5), (0, .prepare)] = .ok s ∧ s.owner 5 = some 0 ∧
    (s.thr 0).wait = none ∧ step 0 s 0 (.lock 3 3) = .abort ∧ step 0 s 0 (.lock 5 5) = .abort :=
  ⟨_, rfl, rfl, rfl, rfl, rfl⟩

/-- **C50, nothing is left locked.** A thread without scoped objects, and not in the middle of one, holds no mutex and
is back at the first level. -/
theorem all_released_partial (zero : L) (level : Nat → L) (acts : List (Nat × Act L)) (hc : Consistent level acts)
    (hd : Disciplined zero initial acts) (s : State L) (h : run zero initial acts = .ok s) (t : Nat)
    (hf : (s.thr t).frames = []) (hw : (s.thr t).wait = none) :
    (∀ m, s.owner m ≠ some t) ∧ ∀ c, (s.thr t).cur = some c → c = zero := by
  have hi := tinv_run acts initial s (tinv_initial zero level) hc hd h
  refine ⟨fun m hm => ?_, fun c hcur => ?_⟩
  · obtain ⟨e, he, _⟩ := ((hi t).owns m).1 hm
    rw [hf] at he
    cases he
  · have := (hi t).settled hw c hcur
    rw [hf] at this
    exact this

example : ∃ s, run 0 (initial : State Nat) [(0, .prepare), (0, .lock 5 5), (0, .prepare), (0, .unlock 0), (0, .destroy),
    (0, .prepare), (0, .destroy)] = .ok s ∧ (s.thr 0).frames = [] ∧ (s.thr 0).wait = none :=
  ⟨_, rfl, rfl, rfl⟩

/-- **C50 fails** when a scoped unlock is made of a lock that is already unlocked: the group forgets the locks taken in
between. Thread 0 locks 9, unlocks it, locks 7, locks 9 again and unlocks the first lock of 9 once more; the group now
believes that it holds nothing, and lets it lock 3 while it holds 7. Thread 1 takes 3 and then 7, in order. -/
theorem unlocked_twice_deadlock : let acts : List (Nat × Act Nat) := [(0, .prepare), (0, .lock 9 9), (0, .prepare), (0, .unlock 0),
      (0, .lock 7 7), (0, .prepare), (0, .lock 9 9), (0, .prepare), (0, .unlock 0), (1, .prepare), (1, .lock 3 3), (1, .prepare),
      (0, .lock 3 3), (1, .lock 7 7)]
    Consistent (fun m => m) acts ∧ ∃ s, run 0 initial acts = .ok s ∧ Deadlock s := by
  refine ⟨?_, _, rfl, 0, ?_⟩
  · intro t m lvl h
    show lvl = m
    simp at h
    omega
  · exact .tail (.single ⟨3, _, rfl, rfl⟩) ⟨7, _, rfl, rfl⟩

end Verif.LockOrd
