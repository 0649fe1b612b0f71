import Verif.FLock.Logged

/-! # C122 and C123: the file lock -/

namespace Verif.FLock

/-- **C122.** In every history, of all runs nobody disturbed at most one is inside: two commands never run together, nor two scripts that were told `success`, nor a command and a script. -/
theorem exclusive_partial (ms : List Move) (r r' : Nat) (h : Inside (run {} ms).log r) (h' : Inside (run {} ms).log r')
    (hd : ¬ Disturbed (run {} ms).log r) (hd' : ¬ Disturbed (run {} ms).log r') : r = r' := by
  have hi := (inv_run inv_init logged_init ms).1
  have key : ∀ q, Inside (run {} ms).log q → ¬ Disturbed (run {} ms).log q → (run {} ms).owner = some q := by
    intro q hq hn
    unfold Disturbed at hn
    simp only [not_or] at hn
    rcases hq with ⟨a, b⟩ | ⟨a, b, c⟩
    · exact hi.locked q (hi.cmdMain q (hi.cmd q a b) hn.1)
    · exact hi.child q (hi.forked q (hi.success q a) b hn.2.1 hn.2.2 c)
  have a := key r h hd
  have b := key r' h' hd'
  rw [a] at b
  exact Option.some.inj b

/-- Two commands after each other; the second had to wait. -/
example : let s := run {} [.start 0 .command 0 none, .attempt 0 0, .start 1 .command 0 none, .attempt 1 0, .spawn 0, .cmdExits 0 0, .attempt 1 1, .spawn 1]
    Inside s.log 1 ∧ ¬ Disturbed s.log 1 ∧ ¬ Inside s.log 0 := by
  have e : (run {} [.start 0 .command 0 none, .attempt 0 0, .start 1 .command 0 none, .attempt 1 0, .spawn 0, .cmdExits 0 0, .attempt 1 1, .spawn 1]).log =
      [.cmdStart 1, .exited 0 0, .cmdEnd 0 0, .cmdStart 0, .began 1 .command 0 none, .began 0 .command 0 none] := by decide +kernel
  simp only [e]
  refine ⟨.inl ⟨by decide, by simp⟩, by simp [Disturbed], ?_⟩
  rintro (⟨_, h⟩ | ⟨h, _⟩)
  · exact h 0 (by decide)
  · simp at h

/-- **C122.** False when the program is killed while its command runs: the command goes on, and the next command starts. -/
theorem killed_exclusive_false : ∃ ms, Inside (run {} ms).log 0 ∧ Inside (run {} ms).log 1 := by
  refine ⟨[.start 0 .command 0 none, .attempt 0 0, .spawn 0, .killMain 0, .start 1 .command 1 none, .attempt 1 1, .spawn 1], ?_⟩
  have e : (run {} [.start 0 .command 0 none, .attempt 0 0, .spawn 0, .killMain 0, .start 1 .command 1 none, .attempt 1 1, .spawn 1]).log =
      [.cmdStart 1, .began 1 .command 1 none, .mainKilled 0, .cmdStart 0, .began 0 .command 0 none] := by decide +kernel
  rw [e]
  exact ⟨.inl ⟨by decide, by simp⟩, .inl ⟨by decide, by simp⟩⟩

/-- **C122.** False when the background process may not send signals to the script: it takes it for gone and releases the lock. -/
theorem foreign_script_false : ∃ ms, Inside (run {} ms).log 0 ∧ Inside (run {} ms).log 1 ∧ (∀ r, .mainKilled r ∉ (run {} ms).log ∧ .childKilled r ∉ (run {} ms).log) := by
  refine ⟨[.start 0 .script 0 none, .attempt 0 0, .fork 0, .report 0, .poll 0 false, .start 1 .script 1 none, .attempt 1 1, .fork 1, .report 1], ?_⟩
  have e : (run {} [.start 0 .script 0 none, .attempt 0 0, .fork 0, .report 0, .poll 0 false, .start 1 .script 1 none, .attempt 1 1, .fork 1, .report 1]).log =
      [.exited 1 0, .success 1, .began 1 .script 1 none, .misjudged 0, .exited 0 0, .success 0, .began 0 .script 0 none] := by decide +kernel
  rw [e]
  exact ⟨.inr ⟨by decide, by decide, by decide⟩, .inr ⟨by decide, by decide, by decide⟩, by simp⟩

/-- **C122.** The lock is never left behind: when no run of the program is past its wait and no background process is alive, whoever asks next gets it (and a command starts). -/
theorem released (ms : List Move) (hfree : ∀ r, ((run {} ms).runs r).main ≠ .locked ∧ ((run {} ms).runs r).child = false) (r : Nat) (now : Int)
    (hw : ((run {} ms).runs r).main = .waiting) (hm : ((run {} ms).runs r).mode = .command) : .cmdStart r ∈ (run {} (ms ++ [.attempt r now, .spawn r])).log := by
  have hi := (inv_run inv_init logged_init ms).1
  have ho : (run {} ms).owner = none := by
    cases hq : (run {} ms).owner with
    | none => rfl
    | some q =>
      rcases hi.owner q hq with h | h
      · exact absurd h (hfree q).1
      · rw [(hfree q).2] at h; cases h
  have hc := (hi.fresh r (.inr hw)).2.1
  unfold run at *
  rw [List.foldl_append]
  generalize List.foldl step {} ms = s at *
  simp only [List.foldl_cons, List.foldl_nil]
  have h1 : step s (.attempt r now) = { s.set r { s.runs r with main := .locked } with owner := some r } := by
    simp only [step]
    rw [if_neg (by simp [hw]), if_pos ho]
    have ht : ∀ w, tryOnce .granted (s.runs r).start now w = .got := by intro w; cases w <;> rfl
    simp only [State.answered, ht]
  rw [h1]
  simp [step, State.set, State.say, hm, hc]

/-- **C122.** A script that ends releases the lock at the next look of the background process, without unlocking. -/
theorem script_end_releases (ms : List Move) (r : Nat) (p : Bool) (hg : ((run {} ms).runs r).caller = false) (hd : ((run {} ms).runs r).main = .done) :
    (run {} (ms ++ [.poll r p])).owner ≠ some r := by
  have hi := (inv_run inv_init logged_init ms).1
  unfold run at *
  rw [List.foldl_append]
  generalize List.foldl step {} ms = s at *
  simp only [List.foldl_cons, List.foldl_nil, step]
  split
  · intro h
    rcases hi.owner r h with h | h
    · rw [hd] at h; cases h
    · simp_all
  · simp only [hg, Bool.false_eq_true, false_and, if_false, State.childEnds, State.settle, State.set, if_true]
    split
    · simp
    · rename_i h2
      simp only [hd] at h2
      simpa using h2

/-- A script that got the lock and ended without unlocking; then a command starts. -/
example : .cmdStart 1 ∈ (run {} ([.start 0 .script 0 none, .attempt 0 0, .fork 0, .report 0, .start 1 .command 0 none, .attempt 1 0, .callerExits 0, .poll 0 true] ++ [.attempt 1 1, .spawn 1])).log := by decide +kernel

theorem exitCode_status (st : Fin 65536) : (exitCode (.status st) = 0 ↔ st = 0) ∧ (256 ≤ st.val → exitCode (.status st) = st.val / 256) ∧ (0 < st.val → st.val < 256 → exitCode (.status st) = 233) := by
  have hz : (st = 0) ↔ st.val = 0 := by
    rw [Fin.ext_iff]; rfl
  have hlt := st.isLt
  rw [hz]
  show (exitOf st.val = 0 ↔ _) ∧ (_ → exitOf st.val = _) ∧ (_ → _ → exitOf st.val = _)
  generalize st.val = n at *
  unfold exitOf
  by_cases hc : n / 2 ^ 8 = 0 ∧ n ≠ 0
  · rw [if_pos hc]; omega
  · rw [if_neg hc]; omega

/-- **C123.** A run whose command was started ends with what the command came to: its exit code if that is not 0, 233 if a signal ended it, and 0 only if the command ended with 0. A run for a command that exits with 0 did run the command. -/
theorem exit_status (ms : List Move) (r c : Nat) (h : .exited r c ∈ (run {} ms).log) :
    (.cmdStart r ∈ (run {} ms).log → ∃ st, .cmdEnd r st ∈ (run {} ms).log ∧ (c = 0 ↔ st = 0) ∧ (256 ≤ st.val → c = st.val / 256) ∧ (0 < st.val → st.val < 256 → c = 233)) ∧
    (∀ start wait, .began r .command start wait ∈ (run {} ms).log → c = 0 → .cmdStart r ∈ (run {} ms).log) := by
  have hl := (inv_run inv_init logged_init ms).2
  constructor
  · intro hc
    obtain ⟨st, h1, h2⟩ := hl.ended r c h hc
    refine ⟨st, h1, ?_⟩
    rw [h2]
    exact exitCode_status st
  · intro start wait hb h0
    subst h0
    exact hl.zero r h (hl.once r _ _ _ hb).2.1.symm

/-- **C123.** A run that gives up had a waiting time and waited for it, and neither its command nor its script was told to go on. -/
theorem gave_up (ms : List Move) (r : Nat) (now : Int) (h : .gaveUp r now ∈ (run {} ms).log) :
    .exited r 1 ∈ (run {} ms).log ∧ .cmdStart r ∉ (run {} ms).log ∧ .success r ∉ (run {} ms).log ∧
    ∃ mode start wait, .began r mode start (some wait) ∈ (run {} ms).log ∧ start + wait ≤ now := by
  have hl := (inv_run inv_init logged_init ms).2
  obtain ⟨h1, h2, h3, w, h4, h5⟩ := hl.gaveUp r now h
  refine ⟨h1, h2, h3, ((run {} ms).runs r).mode, _, w, ?_, h5⟩
  have := hl.began r (by rw [(hl.exitedDone r 1 h1).1]; simp)
  rw [h4] at this
  exact this

/-- The lock is held for two seconds and the second run gives up after one. -/
example : .gaveUp 1 6 ∈ (run {} [.start 0 .command 4 none, .attempt 0 4, .spawn 0, .start 1 .command 5 (some 1), .attempt 1 5, .attempt 1 6, .cmdExits 0 9]).log ∧
    .exited 0 233 ∈ (run {} [.start 0 .command 4 none, .attempt 0 4, .spawn 0, .start 1 .command 5 (some 1), .attempt 1 5, .attempt 1 6, .cmdExits 0 9]).log := by decide +kernel

/-- **C123.** That the exit code tells whether the command was run is false: 1 is both "no lock" and a command that ended with 1. -/
theorem exit_code_tells_false : ∃ ms, .exited 0 1 ∈ (run {} ms).log ∧ .exited 1 1 ∈ (run {} ms).log ∧ .cmdStart 0 ∈ (run {} ms).log ∧ .cmdStart 1 ∉ (run {} ms).log :=
  ⟨[.start 0 .command 4 none, .attempt 0 4, .spawn 0, .start 1 .command 5 (some 0), .attempt 1 5, .cmdExits 0 256], by decide +kernel⟩

/-- **C123.** `getLock` with a waiting time: it returns a handle exactly when one of the answers was "granted" and every answer before came before the time was up; it returns undef exactly when some answer came when the time was up, and no answer up to
that one was "granted". So the lock is asked for at least once, and no longer than the first answer after the time. -/
theorem getLock_partial (start wait : Int) (hw : 0 ≤ wait) (answers : List (Ans × Int)) :
    (getLock true start (some wait) answers = .handle ↔ ∃ pre now post, answers = pre ++ (.granted, now) :: post ∧ ∀ x ∈ pre, x.1 ≠ .granted ∧ x.2 < start + wait) ∧
    (getLock true start (some wait) answers = .undef ↔ ∃ pre ans now post, answers = pre ++ (ans, now) :: post ∧ ans ≠ .granted ∧ start + wait ≤ now ∧ ∀ x ∈ pre, x.1 ≠ .granted ∧ x.2 < start + wait) := by
  have e : getLock true start (some wait) answers = lockLoop start (some wait) answers := by
    simp only [getLock, Bool.not_true, Bool.false_eq_true, if_false, Option.map_some, Option.some.injEq, decide_eq_true_eq]
    rw [if_neg (by omega)]
  rw [e]
  clear e
  induction answers with
  | nil => simp [lockLoop]
  | cons x xs ih =>
    obtain ⟨ans, now⟩ := x
    by_cases hg : ans = .granted
    · subst hg
      simp only [lockLoop, tryOnce, round, flockValue]
      refine ⟨⟨fun _ => ⟨[], now, xs, rfl, by simp⟩, fun _ => by simp⟩, ⟨fun h => by simp at h, ?_⟩⟩
      rintro ⟨pre, a, n, post, h1, h2, _, h4⟩
      cases pre with
      | nil => simp at h1; exact absurd h1.1.1.symm h2
      | cons p ps =>
        simp at h1
        exact absurd (by rw [← h1.1]) (h4 p (by simp)).1
    · by_cases ht : start + wait ≤ now
      · have e : lockLoop start (some wait) ((ans, now) :: xs) = .undef := by
          cases ans <;> simp_all [lockLoop, tryOnce, round, flockValue] <;> (rw [if_pos (by omega)])
        rw [e]
        refine ⟨⟨fun h => by simp at h, ?_⟩, ⟨fun _ => ⟨[], ans, now, xs, rfl, hg, ht, by simp⟩, fun _ => rfl⟩⟩
        rintro ⟨pre, n, post, h1, h2⟩
        cases pre with
        | nil => simp at h1; exact absurd h1.1.1 hg
        | cons p ps =>
          simp at h1
          have := (h2 p (by simp)).2
          rw [← h1.1] at this
          simp at this
          omega
      · have e : lockLoop start (some wait) ((ans, now) :: xs) = lockLoop start (some wait) xs := by
          cases ans <;> simp_all [lockLoop, tryOnce, round, flockValue] <;> (rw [if_neg (by omega)])
        rw [e]
        constructor
        · rw [ih.1]
          constructor
          · rintro ⟨pre, n, post, h1, h2⟩
            refine ⟨(ans, now) :: pre, n, post, by rw [h1]; rfl, ?_⟩
            intro x hx
            rcases List.mem_cons.1 hx with rfl | hx
            · exact ⟨hg, by simpa using ht⟩
            · exact h2 x hx
          · rintro ⟨pre, n, post, h1, h2⟩
            cases pre with
            | nil => simp at h1; exact absurd h1.1.1 hg
            | cons p ps =>
              simp at h1
              exact ⟨ps, n, post, h1.2, fun x hx => h2 x (by simp [hx])⟩
        · rw [ih.2]
          constructor
          · rintro ⟨pre, a, n, post, h1, h2, h3, h4⟩
            refine ⟨(ans, now) :: pre, a, n, post, by rw [h1]; rfl, h2, h3, ?_⟩
            intro x hx
            rcases List.mem_cons.1 hx with rfl | hx
            · exact ⟨hg, by simpa using ht⟩
            · exact h4 x hx
          · rintro ⟨pre, a, n, post, h1, h2, h3, h4⟩
            cases pre with
            | nil => simp at h1; exact absurd (h1.1.2 ▸ h3) ht
            | cons p ps =>
              simp at h1
              exact ⟨ps, a, n, post, h1.2, h2, h3, fun x hx => h4 x (by simp [hx])⟩

example : getLock true 100 (some 2) [(.held, 100), (.held, 101), (.granted, 102)] = .handle ∧ getLock true 100 (some 2) [(.held, 100), (.held, 102), (.granted, 103)] = .undef := by decide

/-- **C123.** That it dies when `flock` fails is false with a waiting time: perl's `flock` returns 0 and not undef, so a failure counts as "held", and the caller is told that the time is up although nobody had the lock. -/
theorem getLock_errors_false (start wait : Int) (hw : 0 ≤ wait) (answers : List (Ans × Int)) : getLock true start (some wait) answers ≠ .dies ∧
    getLock true start (some wait) [(.error, start + wait)] = .undef ∧ getLock true start none [(.error, start)] = .dies := by
  refine ⟨?_, ?_, rfl⟩
  · simp only [getLock, Bool.not_true, Bool.false_eq_true, if_false, Option.map_some, Option.some.injEq, decide_eq_true_eq]
    rw [if_neg (by omega)]
    induction answers with
    | nil => simp [lockLoop]
    | cons x xs ih =>
      obtain ⟨ans, now⟩ := x
      simp only [lockLoop, tryOnce, round]
      cases ans <;> simp only [flockValue] <;> grind
  · simp only [getLock, lockLoop, tryOnce, round, flockValue, Bool.not_true, Bool.false_eq_true, if_false, Option.map_some, Option.some.injEq, decide_eq_true_eq]
    rw [if_neg (by omega)]
    simp only [ne_eq, not_true_eq_false, if_false]
    rw [if_pos (by omega)]

end Verif.FLock
