import Verif.Serve.Lemmas

/-!
# A server for untested changes (C220)
-/

namespace Verif.Serve

/-- One update that comes and is tested. -/
def once (ok : Bool) : List Move :=
  [.recv, .hookLock, .hookRead, .hookCopy, .hookKill, .wake, .lock, .take, .finish ok ["HEADS x: 1".toList]]

/-- C220. However the steps of the server, of its hooks and of the pushing process interleave: once the process waits again without a signal and no hook is at work, the database tested last had every
update that the server got. -/
theorem serve_nothing_lost {ms : List Move} {s : S} (h : run start ms = some s) (hi : Idle s) : s.recv = 0 ∨ lastTested s.log = some s.recv := by
  obtain ⟨h1, h2, h3, h4⟩ := hi
  rcases (run_inv h).c h1 (.inl h2) with a | ⟨-, b⟩ | ⟨k, a, -⟩ | ⟨a, -⟩ | a
  · exact .inl a
  · rcases b with b | b | b | b | b | b
    · exact absurd (h3.symm.trans b) (by simp)
    · exact absurd (h2.symm.trans b) (by simp)
    all_goals exact absurd (h4.symm.trans b) (by simp)
  · exact absurd (h4.symm.trans a) (by simp)
  · exact absurd (h4.symm.trans a) (by simp)
  · exact .inr a

/-- The hypotheses of `serve_nothing_lost`: a second update comes while the first is tested, and a third is in the same copy as the second. -/
example : ((run start [.recv, .hookLock, .hookRead, .hookCopy, .hookKill, .wake, .lock, .take, .recv, .recv, .hookLock, .hookRead, .hookCopy, .hookKill, .hookLock, .hookRead, .hookCopy, .hookKill,
      .finish true [['a']], .wake, .lock, .take, .finish true [['b']]]).map
    fun s => (s.recv, s.waiting, s.hook, s.updated, s.pc, tests s.log)) = some (3, 0, .none, false, .wait, [(1, true, ['a']), (3, true, ['b'])]) := by rfl

/-- C220. Databases are tested in the order in which they were received, none twice with less in it than before, and each had only what was received. -/
theorem serve_order {ms : List Move} {s : S} (h : run start ms = some s) : ((tests s.log).map (·.1)).Pairwise (· ≤ ·) ∧ ∀ v ∈ (tests s.log).map (·.1), v ≤ s.recv := by
  suffices hh : Inv s ∧ ((tests s.log).map (·.1)).Pairwise (· ≤ ·) ∧ ∀ v ∈ (tests s.log).map (·.1), v ≤ s.db from
    ⟨hh.2.1, fun v hv => Nat.le_trans (hh.2.2 v hv) hh.1.b.db⟩
  refine run_ind (P := fun s => Inv s ∧ ((tests s.log).map (·.1)).Pairwise (· ≤ ·) ∧ ∀ v ∈ (tests s.log).map (·.1), v ≤ s.db) ?_ ms ⟨inv_start, List.Pairwise.nil, fun _ h => (by cases h)⟩ h
  intro s s' m ⟨hI, p1, p2⟩ h
  refine ⟨inv_step hI h, ?_⟩
  obtain ⟨-, h⟩ := step_rel h
  rcases h with ⟨-, rfl⟩ | ⟨-, h1, -, rfl⟩ | ⟨-, h1, rfl⟩ | ⟨-, x, h1, rfl⟩ | ⟨-, h1, rfl⟩ | ⟨-, h1, h2, -, -, rfl⟩ | ⟨-, h1, rfl⟩ | ⟨-, x, h1, rfl⟩ | ⟨-, h1, rfl⟩ | ⟨-, h1, -, rfl⟩ |
    ⟨-, h1, h2, rfl⟩ | ⟨-, h1, h2, rfl⟩ | ⟨-, k, h1, h2, rfl⟩ | ⟨-, k, v, h1, h2, rfl⟩ | ⟨ok, hd', -, h1, h2, rfl⟩ | ⟨ok, hd', -, h1, h2, rfl⟩
  case inr.inr.inr.inr.inl => simp only [tests_append, tests, List.append_nil]; exact ⟨p1, p2⟩
  case inr.inr.inr.inr.inr.inr.inr.inr.inl => simp only [tests_append, tests, List.append_nil]; exact ⟨p1, p2⟩
  case inr.inr.inr.inr.inr.inr.inr.inr.inr.inr.inr.inr.inr.inl => exact ⟨p1, fun w hw => Nat.le_trans (p2 w hw) (hI.b.taken k v h1 h2).1⟩
  case inr.inr.inr.inr.inr.inr.inr.inr.inr.inr.inr.inr.inr.inr.inr =>
    have e : (tests (s.log ++ [.test s.db ok hd'.flatten])).map (·.1) = (tests s.log).map (·.1) ++ [s.db] := by simp [tests_append, tests]
    refine ⟨?_, fun w hw => ?_⟩
    · show ((tests (s.log ++ [.test s.db ok hd'.flatten])).map (·.1)).Pairwise (· ≤ ·)
      rw [e, List.pairwise_append]
      exact ⟨p1, List.pairwise_singleton _ _, fun a ha b hb => by rw [List.mem_singleton.1 hb]; exact p2 a ha⟩
    · replace hw : w ∈ (tests (s.log ++ [.test s.db ok hd'.flatten])).map (·.1) := hw
      rw [e, List.mem_append, List.mem_singleton] at hw
      rcases hw with hw | rfl
      · exact p2 w hw
      · exact Nat.le_refl _
  all_goals exact ⟨p1, p2⟩

/-! ## It lives -/

/-- What holds in calm runs. -/
structure Live (s : S) : Prop where
  dead : s.dead = none
  updated : s.updated = true → (s.files (num s.count)).isSome
  copied : s.hook = .copied → (s.files (num s.count)).isSome
  script : s.pc = .scriptCopied → (s.files (num s.count)).isSome
  cleared : s.pc = .cleared → (s.files (num s.count)).isSome ∧ s.updated = false
  bumped : ∀ k, s.pc = .bumped k → (s.files (num k)).isSome
  blocked : s.pc ≠ .blocked

theorem live_step {s s' : S} {m : Move} (hI : Inv s) (hL : Live s) (hc : s.pc = .cleared → s.hook = .none) (hm : ∀ ok heads, m = .finish ok heads → heads ≠ []) (h : step s m = some s') : Live s' := by
  obtain ⟨l1, l2, l3, l4, l5, l6, l7⟩ := hL
  obtain ⟨-, h⟩ := step_rel h
  rcases h with ⟨-, rfl⟩ | ⟨-, h1, -, rfl⟩ | ⟨-, h1, rfl⟩ | ⟨-, x, h1, rfl⟩ | ⟨-, h1, rfl⟩ | ⟨-, h1, h2, -, -, rfl⟩ | ⟨-, h1, rfl⟩ | ⟨-, x, h1, rfl⟩ | ⟨-, h1, rfl⟩ | ⟨-, h1, h2, rfl⟩ |
    ⟨-, h1, h2, rfl⟩ | ⟨-, h1, h2, rfl⟩ | ⟨-, k, h1, h2, rfl⟩ | ⟨-, k, v, h1, h2, rfl⟩ | ⟨ok, hd', h0, h1, h2, rfl⟩ | ⟨ok, hd', -, h1, h2, rfl⟩
  · exact ⟨l1, l2, l3, l4, l5, l6, l7⟩
  · exact ⟨l1, l2, fun h => (by cases h), l4, l5, l6, l7⟩
  · exact ⟨l1, l2, fun h => (by cases h), l4, l5, l6, l7⟩
  · have e : ((put s.files x (some s.recv)) (num s.count)).isSome := by rw [hI.a.hook x h1, put_same]; rfl
    refine ⟨l1, fun _ => e, fun _ => e, fun _ => e, fun hp => ⟨e, (l5 hp).2⟩, fun k hk => ?_, l7⟩
    have := hI.a.bumped k hk
    show (put s.files x _ (num k)).isSome
    rw [hI.a.hook x h1, put_num _ _ (by omega)]
    exact l6 k hk
  · refine ⟨if_neg l7, fun _ => l3 h1, fun _ => l3 h1, l4, fun hp => ?_, l6, l7⟩
    exact absurd ((hc hp).symm.trans h1) (by simp)
  · exact ⟨l1, l2, l3, fun h => (by cases h), fun h => (by cases h), fun _ h => (by cases h), by simp⟩
  · exact ⟨l1, l2, l3, fun h => (by cases h), fun h => (by cases h), fun _ h => (by cases h), by simp⟩
  · have e : ((put s.files x (some s.recv)) (num s.count)).isSome := by rw [hI.a.script x h1, put_same]; rfl
    exact ⟨l1, fun _ => e, fun _ => e, fun _ => e, fun h => (by cases h), fun _ h => (by cases h), by simp⟩
  · exact ⟨l1, fun _ => l4 h1, l3, fun h => (by cases h), fun h => (by cases h), fun _ h => (by cases h), by simp⟩
  · exact ⟨l1, fun h => (by cases h), l3, fun h => (by cases h), fun _ => ⟨l2 h2, rfl⟩, fun _ h => (by cases h), by simp⟩
  · refine ⟨l1, fun h => ?_, fun h => ?_, fun h => (by cases h), fun h => (by cases h), fun k h => (by cases h; exact (l5 h1).1), by simp⟩
    · exact absurd ((l5 h1).2.symm.trans h) (by simp)
    · exact absurd (h2.symm.trans h) (by simp)
  · exact absurd (hc h1) h2
  · exact absurd (l6 k h1) (by rw [h2]; simp)
  · have hk := hI.a.bumped k h1
    have e : put s.files (num k) none (num s.count) = s.files (num s.count) := put_num _ _ (by omega)
    exact ⟨l1, fun h => (by show (put s.files (num k) none (num s.count)).isSome; rw [e]; exact l2 h), fun h => (by show (put s.files (num k) none (num s.count)).isSome; rw [e]; exact l3 h),
      fun h => (by cases h), fun h => (by cases h), fun _ h => (by cases h), by simp⟩
  · exact absurd h2 (hm ok hd' h0)
  · exact ⟨l1, l2, l3, fun h => (by cases h), fun h => (by cases h), fun _ h => (by cases h), by simp⟩

/-- C220. The process does not die, as long as no hook has the lock while it has cleared its flag and not yet raised the number, and every test prints heads. -/
theorem serve_lives_partial {ms : List Move} {s : S} (hc : Calm start ms) (h : run start ms = some s) : s.dead = none := by
  suffices hh : ∀ (ms : List Move) (s0 : S), Inv s0 → Live s0 → Calm s0 ms → run s0 ms = some s → Live s from
    (hh ms start inv_start ⟨rfl, fun h => (by cases h), fun h => (by cases h), fun h => (by cases h), fun h => (by cases h), fun _ h => (by cases h), fun h => (by cases h)⟩ hc h).dead
  intro ms
  induction ms with
  | nil => intro s0 _ hL _ h; cases h; exact hL
  | cons m ms ih =>
    intro s0 hI hL hc h
    unfold Calm at hc
    obtain ⟨c1, c2, c3⟩ := hc
    simp only [run] at h
    cases hm : step s0 m with
    | none => simp [hm] at h
    | some s1 =>
      simp only [hm] at h
      exact ih s1 (inv_step hI hm) (live_step hI hL c1 c2 hm) (c3 s1 hm) h

/-- To check calm runs. -/
def calmB : S → List Move → Bool
  | s, [] => s.pc != .cleared || s.hook == .none
  | s, m :: ms => (s.pc != .cleared || s.hook == .none) && (match m with | .finish _ [] => false | _ => true) && (match step s m with | none => true | some s' => calmB s' ms)

theorem calmB_ok : ∀ (ms : List Move) (s : S), calmB s ms = true → Calm s ms
  | [], s, h => by
    unfold Calm
    simp only [calmB] at h
    refine ⟨fun hp => ?_, trivial⟩
    rw [hp] at h
    simpa using h
  | m :: ms, s, h => by
    unfold Calm
    simp only [calmB, Bool.and_eq_true] at h
    obtain ⟨⟨h1, h2⟩, h3⟩ := h
    refine ⟨fun hp => ?_, fun ok heads he hn => ?_, fun s' hs => ?_⟩
    · rw [hp] at h1
      simpa using h1
    · subst he hn
      simp at h2
    · simp only [hs] at h3
      exact calmB_ok ms s' h3

/-- The hypotheses of `serve_lives_partial`: an update that fails, is tried again, and another one that comes meanwhile. -/
example : Calm start (once false ++ [.retry, .recv, .retryRead, .hookLock, .retryCopy, .hookRead, .retryKill, .hookCopy, .hookKill, .wake, .lock, .take, .finish false [['a']]]) ∧
    (run start (once false ++ [.retry, .recv, .retryRead, .hookLock, .retryCopy, .hookRead, .retryKill, .hookCopy, .hookKill, .wake, .lock, .take, .finish false [['a']]])).isSome :=
  ⟨calmB_ok _ _ (by decide), by decide⟩

/-- C220. A second signal that comes after the flag was cleared and before the number is raised is answered for a file that is not there: the process dies, and the server with it. -/
theorem serve_missing_false : ((run start [.recv, .hookLock, .hookRead, .hookCopy, .hookKill, .wake, .recv, .hookLock, .hookRead, .hookCopy, .hookKill, .lock, .take, .finish true [['a']],
    .wake, .lock, .take]).map fun s => (s.dead, tests s.log)) = some (some .missing, [(2, true, ['a'])]) := by decide

/-- C220. A process that waits for the lock is interrupted by the signal of the hook that has it: whatever happens, it dies before anything else is tested. -/
theorem serve_interrupt_false {s : S} (hd : s.dead = none) (hp : s.pc = .blocked) {m : Move} {s' : S} (h : step s m = some s') :
    tests s'.log = tests s.log ∧ (s'.dead = some .interrupted ∨ (s'.dead = none ∧ s'.pc = .blocked)) := by
  obtain ⟨-, h⟩ := step_rel h
  rcases h with ⟨-, rfl⟩ | ⟨-, h1, -, rfl⟩ | ⟨-, h1, rfl⟩ | ⟨-, x, h1, rfl⟩ | ⟨-, h1, rfl⟩ | ⟨-, h1, h2, -, -, rfl⟩ | ⟨-, h1, rfl⟩ | ⟨-, x, h1, rfl⟩ | ⟨-, h1, rfl⟩ | ⟨-, h1, h2, rfl⟩ |
    ⟨-, h1, h2, rfl⟩ | ⟨-, h1, h2, rfl⟩ | ⟨-, k, h1, h2, rfl⟩ | ⟨-, k, v, h1, h2, rfl⟩ | ⟨ok, hd', h0, h1, h2, rfl⟩ | ⟨ok, hd', -, h1, h2, rfl⟩
  case inr.inr.inr.inr.inl => exact ⟨by simp [tests_append, tests], .inl (if_pos hp)⟩
  case inl => exact ⟨rfl, .inr ⟨hd, hp⟩⟩
  case inr.inl => exact ⟨rfl, .inr ⟨hd, hp⟩⟩
  case inr.inr.inl => exact ⟨rfl, .inr ⟨hd, hp⟩⟩
  case inr.inr.inr.inl => exact ⟨rfl, .inr ⟨hd, hp⟩⟩
  case inr.inr.inr.inr.inr.inr.inr.inr.inr.inl => rcases h1 with h1 | h1 <;> exact absurd (hp.symm.trans h1) (by simp)
  all_goals exact absurd (hp.symm.trans h1) (by simp)

/-- The state of `serve_interrupt_false` is reached, and so is its end. -/
example : ((run start [.recv, .hookLock, .hookRead, .hookCopy, .hookKill, .wake, .recv, .hookLock, .lock]).map fun s => (s.dead, s.pc)) = some (none, .blocked) ∧
    ((run start [.recv, .hookLock, .hookRead, .hookCopy, .hookKill, .wake, .recv, .hookLock, .lock, .hookRead, .hookCopy, .hookKill]).map fun s => (s.dead, tests s.log)) = some (some .interrupted, []) := by
  decide

/-- C220. A test that fails before it has printed heads (no checkout, for one) is not tried again: the process dies. -/
theorem serve_heads_false {s : S} (hd : s.dead = none) (hp : s.pc = .testing) (ok : Bool) : ∃ s', step s (.finish ok []) = some s' ∧ s'.dead = some .noHeads ∧ tests s'.log = tests s.log := by
  obtain ⟨recv, waiting, hook, id, files, updated, pc, count, fails, last, db, dead, log⟩ := s
  subst hd hp
  exact ⟨_, rfl, rfl, rfl⟩

example : ((run start [.recv, .hookLock, .hookRead, .hookCopy, .hookKill, .wake, .lock, .take]).map fun s => (s.dead, s.pc)) = some (none, .testing) := by decide

/-- C220. While anything is left to do, somebody can do a step. -/
theorem serve_progress {ms : List Move} {s : S} (h : run start ms = some s) (hd : s.dead = none) (hi : ¬Idle s) : ∃ m, m ≠ .recv ∧ (step s m).isSome := by
  have hI := run_inv h
  obtain ⟨recv, waiting, hook, id, files, updated, pc, count, fails, last, db, dead, log⟩ := s
  obtain rfl : dead = none := hd
  cases hook with
  | got => exact ⟨.hookRead, by simp, by simp [step]⟩
  | read x => exact ⟨.hookCopy, by simp, by simp [step]⟩
  | copied => exact ⟨.hookKill, by simp, by simp [step]⟩
  | none =>
    by_cases hw : waiting = 0
    · cases pc with
      | wait =>
        cases updated with
        | true => exact ⟨.wake, by simp, by simp [step]⟩
        | false => exact absurd ⟨hw, rfl, rfl, rfl⟩ hi
      | script => exact ⟨.retryRead, by simp, by simp [step]⟩
      | scriptRead x => exact ⟨.retryCopy, by simp, by simp [step]⟩
      | scriptCopied => exact ⟨.retryKill, by simp, by simp [step]⟩
      | sig =>
        obtain rfl : updated = true := hI.d.sig rfl
        exact ⟨.wake, by simp, by simp [step]⟩
      | cleared => exact ⟨.lock, by simp, by simp [step]⟩
      | blocked => exact absurd rfl (hI.d.blocked rfl rfl)
      | bumped k => exact ⟨.take, by simp, by simp [step]⟩
      | testing => exact ⟨.finish true [], by simp, by simp [step]⟩
    · exact ⟨.hookLock, by simp, by simp [step, hw]⟩

/-! ## Trying again -/

theorem inRow_hook (es : List Ev) : inRow (es ++ [.hook]) = inRow es := by unfold inRow; simp [tests_append, tests]

theorem inRow_again (es : List Ev) : inRow (es ++ [.again]) = inRow es := by unfold inRow; simp [tests_append, tests]

/-- The heads of the last test. -/
def lastHeads (es : List Ev) : Option Txt := ((tests es).getLast?).map (·.2.2)

theorem inRow_test (es : List Ev) (v : Nat) (ok : Bool) (h : Txt) {last : Txt} (hl : ∀ x, lastHeads es = some x → last = x) :
    inRow (es ++ [.test v ok h]) = if ok then 0 else (if last = h then inRow es else 0) + 1 := by
  unfold inRow
  rw [tests_append]
  simp only [tests, List.reverse_append, List.reverse_cons, List.reverse_nil, List.nil_append, List.singleton_append]
  cases ok with
  | true => rfl
  | false =>
    simp only [sameFailures, if_true, Bool.false_eq_true, if_false]
    congr 1
    unfold lastHeads at hl
    rw [← List.head?_reverse] at hl
    generalize (tests es).reverse = r at hl ⊢
    cases r with
    | nil => simp [sameFailures]
    | cons t ts =>
      obtain ⟨v', ok', h'⟩ := t
      obtain rfl := hl h' rfl
      by_cases e : last = h
      · rw [if_pos e, e]
      · rw [if_neg e]
        cases ok' with
        | true => rfl
        | false => simp [sameFailures, e]

/-- Whether a signal is being answered. -/
def busy : Pc → Nat
  | .cleared | .blocked | .bumped _ | .testing => 1
  | _ => 0

/-- What is counted. -/
structure Cnt (s : S) : Prop where
  fails : s.fails = inRow s.log
  last : ∀ x, lastHeads s.log = some x → s.last = x
  script : s.pc = .script ∨ (∃ x, s.pc = .scriptRead x) ∨ s.pc = .scriptCopied → 0 < inRow s.log ∧ inRow s.log < 5
  again : ∀ a b, s.log = a ++ .again :: b → 0 < inRow a ∧ inRow a < 5
  sum : (tests s.log).length + busy s.pc + s.updated.toNat ≤ s.log.count .hook + s.log.count .again

theorem snoc_split {es a b : List Ev} {e : Ev} (h : es ++ [e] = a ++ .again :: b) : (e = .again ∧ a = es) ∨ ∃ b', es = a ++ .again :: b' := by
  rcases List.eq_nil_or_concat b with rfl | ⟨b', x, rfl⟩
  · have := List.append_inj' h (by simp)
    exact .inl ⟨by simpa using this.2, this.1.symm⟩
  · rw [List.concat_eq_append, ← List.cons_append, ← List.append_assoc] at h
    exact .inr ⟨b', (List.append_inj' h (by simp)).1⟩

theorem cnt_step {s s' : S} {m : Move} (hC : Cnt s) (h : step s m = some s') : Cnt s' := by
  obtain ⟨c1, c2, c3, c4, c5⟩ := hC
  obtain ⟨-, h⟩ := step_rel h
  rcases h with ⟨-, rfl⟩ | ⟨-, h1, -, rfl⟩ | ⟨-, h1, rfl⟩ | ⟨-, x, h1, rfl⟩ | ⟨-, h1, rfl⟩ | ⟨-, h1, h2, h3, h4, rfl⟩ | ⟨-, h1, rfl⟩ | ⟨-, x, h1, rfl⟩ | ⟨-, h1, rfl⟩ | ⟨-, h1, h2, rfl⟩ |
    ⟨-, h1, h2, rfl⟩ | ⟨-, h1, h2, rfl⟩ | ⟨-, k, h1, h2, rfl⟩ | ⟨-, k, v, h1, h2, rfl⟩ | ⟨ok, hd', h0, h1, h2, rfl⟩ | ⟨ok, hd', -, h1, h2, rfl⟩
  · exact ⟨c1, c2, c3, c4, c5⟩
  · exact ⟨c1, c2, c3, c4, c5⟩
  · exact ⟨c1, c2, c3, c4, c5⟩
  · exact ⟨c1, c2, c3, c4, c5⟩
  · refine ⟨by rw [inRow_hook]; exact c1, ?_, by rw [inRow_hook]; exact c3, fun a b e => ?_, ?_⟩
    · simpa [lastHeads, tests_append, tests] using c2
    · rcases snoc_split e with ⟨e', -⟩ | ⟨b', e'⟩
      · cases e'
      · exact c4 a b' e'
    · simp only [tests_append, tests, List.append_nil, List.count_append, List.count_singleton_self, Bool.toNat_true, show List.count Ev.again [Ev.hook] = 0 from rfl]
      omega
  · refine ⟨c1, c2, fun _ => by rw [← c1]; exact ⟨h3, h4⟩, c4, ?_⟩
    simp [h1, busy] at c5
    simpa [busy] using c5
  · refine ⟨c1, c2, fun _ => c3 (.inl h1), c4, ?_⟩
    simp [h1, busy] at c5
    simpa [busy] using c5
  · refine ⟨c1, c2, fun _ => c3 (.inr (.inl ⟨x, h1⟩)), c4, ?_⟩
    simp [h1, busy] at c5
    simpa [busy] using c5
  · have c3' := c3 (.inr (.inr h1))
    refine ⟨by rw [inRow_again]; exact c1, ?_, fun h => ?_, fun a b e => ?_, ?_⟩
    · simpa [lastHeads, tests_append, tests] using c2
    · rcases h with h | ⟨x, h⟩ | h <;> cases h
    · rcases snoc_split e with ⟨-, rfl⟩ | ⟨b', e'⟩
      · exact c3'
      · exact c4 a b' e'
    · simp [h1, busy] at c5
      simp [tests_append, tests, List.count_append, busy]
      omega
  · refine ⟨c1, c2, fun h => ?_, c4, ?_⟩
    · rcases h with h | ⟨x, h⟩ | h <;> cases h
    · rcases h1 with h1 | h1
      · simp [h1, h2, busy] at c5
        simpa [busy] using c5
      · simp [h1, h2, busy] at c5
        simpa [busy] using c5
  · refine ⟨c1, c2, fun h => ?_, c4, ?_⟩
    · rcases h with h | ⟨x, h⟩ | h <;> cases h
    · simp [h1, busy] at c5
      simpa [busy] using c5
  · refine ⟨c1, c2, fun h => ?_, c4, ?_⟩
    · rcases h with h | ⟨x, h⟩ | h <;> cases h
    · simp [h1, busy] at c5
      simpa [busy] using c5
  · exact ⟨c1, c2, c3, c4, c5⟩
  · refine ⟨c1, c2, fun h => ?_, c4, ?_⟩
    · rcases h with h | ⟨x, h⟩ | h <;> cases h
    · simp [h1, busy] at c5
      simpa [busy] using c5
  · exact ⟨c1, c2, c3, c4, c5⟩
  · refine ⟨?_, ?_, fun h => ?_, fun a b e => ?_, ?_⟩
    · show (if ok = true then 0 else (if s.last = hd'.flatten then s.fails else 0) + 1) = inRow (s.log ++ [.test s.db ok hd'.flatten])
      rw [inRow_test s.log s.db ok hd'.flatten c2, c1]
    · intro x hx
      simp [lastHeads, tests_append, tests] at hx
      exact hx
    · rcases h with h | ⟨x, h⟩ | h <;> cases h
    · rcases snoc_split e with ⟨e', -⟩ | ⟨b', e'⟩
      · cases e'
      · exact c4 a b' e'
    · simp [h1, busy] at c5
      simp [tests_append, tests, List.count_append, List.count_cons, busy]
      omega

/-- C220. The script is run again only when the tests at the end have failed between one and four times in a row with the same heads, and there are not more tests than signals. -/
theorem serve_retries {ms : List Move} {s : S} (h : run start ms = some s) : (∀ a b, s.log = a ++ .again :: b → 1 ≤ inRow a ∧ inRow a ≤ 4) ∧
    (tests s.log).length ≤ s.log.count .hook + s.log.count .again := by
  have hC : Cnt s := run_ind (P := Cnt) (fun _ _ _ => cnt_step) ms
    ⟨rfl, fun _ h => (by cases h), fun h => (by rcases h with h | ⟨x, h⟩ | h <;> cases h), fun a b h => (by cases a <;> cases h), by simp [start, tests, busy]⟩ h
  refine ⟨fun a b e => ?_, ?_⟩
  · have := hC.again a b e
    omega
  · have := hC.sum
    omega

/-- After five failures with the same heads the process waits for the next update; with other heads it tries again. -/
example : ∀ again : List Move, again = [.retry, .retryRead, .retryCopy, .retryKill, .wake, .lock, .take, .finish false ["HEADS x: 1".toList]] →
    ((run start (once false ++ again ++ again ++ again ++ again)).map fun s => (s.fails, s.log.count .again, (step s .retry).isSome)) = some (5, 4, false) ∧
    ((run start (once false ++ again ++ again ++ again ++ again ++ [.recv, .hookLock, .hookRead, .hookCopy, .hookKill, .wake, .lock, .take, .finish false [['b']]])).map fun s =>
      (s.fails, (step s .retry).isSome)) = some (1, true) := by
  intro again e
  subst e
  decide

end Verif.Serve
