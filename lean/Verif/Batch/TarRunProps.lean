import Verif.Batch.TarRun

/-! # batch-parallel tar: when an archive is made anew (C255) -/

namespace Verif.Batch.TarRun

/-! ## Specification -/

/-- At the beginning there is no archive and no process. -/
def Fresh (s : St) : Prop := s.dest = none ∧ s.job = none

/-- The archive `a` has every file that was there at the beginning `p` of the history, each as it was at some time between `p` and `q`, and nothing else. -/
def Whole (names : List Nat) (s : St) (p q : List Op) (a : Nat → Option Nat) : Prop :=
  (∀ n ∈ names, (run names s p).src n ≠ none → ∃ r, p <+: r ∧ r <+: q ∧ ∃ t c, (run names s r).src n = some (t, c) ∧ a n = some c) ∧
  ∀ n, n ∉ names ∨ (run names s p).src n = none → a n = none

/-- The archive has all sources as they are now. -/
def UpToDate (names : List Nat) (s : St) : Prop := ∃ t a, s.dest = some (t, a) ∧ ∀ n ∈ names, ∀ m c, s.src n = some (m, c) → a n = some c

/-- What is not newer than the archive is in it. -/
def Honest (names : List Nat) (s : St) : Prop := ∀ t a, s.dest = some (t, a) → ∀ n ∈ names, ∀ m c, s.src n = some (m, c) → m ≤ t → a n = some c

/-! ## Lemmas -/

theorem run_append (names : List Nat) (s : St) (a b : List Op) : run names s (a ++ b) = run names (run names s a) b := by
  induction a generalizing s with
  | nil => rfl
  | cons o a ih => exact ih _

theorem run_snoc (names : List Nat) (s : St) (a : List Op) (o : Op) : run names s (a ++ [o]) = step names (run names s a) o := run_append names s a [o]

theorem mem_sources (names : List Nat) (s : St) (n : Nat) : n ∈ sources names s ↔ n ∈ names ∧ s.src n ≠ none := by
  unfold sources
  rw [List.mem_filter, Option.isSome_iff_ne_none]

/-- What the process has copied so far. -/
def JobOk (names : List Nat) (s : St) (ops : List Op) : Prop :=
  ∀ todo t a, (run names s ops).job = some ⟨todo, t, a⟩ → ∃ p done, p <+: ops ∧ sources names (run names s p) = done ++ todo ∧
    (∀ n ∈ done, ∃ r, p <+: r ∧ r <+: ops ∧ ∃ t c, (run names s r).src n = some (t, c) ∧ a n = some c) ∧ ∀ n, n ∉ done → a n = none

theorem jobOk_keep (names : List Nat) (s : St) (ops : List Op) (o : Op) (h : JobOk names s ops)
    (hj : ∀ j, (step names (run names s ops) o).job = some j → (run names s ops).job = some j) : JobOk names s (ops ++ [o]) := by
  intro todo t a e
  rw [run_snoc] at e
  obtain ⟨p, done, h1, h2, h3, h4⟩ := h todo t a (hj _ e)
  have hp : ops <+: ops ++ [o] := List.prefix_append _ _
  exact ⟨p, done, h1.trans hp, h2, fun n hn => let ⟨r, a1, a2, a3⟩ := h3 n hn; ⟨r, a1, a2.trans hp, a3⟩, h4⟩

theorem jobOk_step (names : List Nat) (s : St) (ops : List Op) (o : Op) (h : JobOk names s ops) : JobOk names s (ops ++ [o]) := by
  have hp : ops <+: ops ++ [o] := List.prefix_append _ _
  cases o with
  | tick => exact jobOk_keep names s ops _ h fun j hj => hj
  | write n c => exact jobOk_keep names s ops _ h fun j hj => hj
  | remove n => exact jobOk_keep names s ops _ h fun j hj => hj
  | fail => exact jobOk_keep names s ops _ h fun j hj => by cases hj
  | finish =>
    refine jobOk_keep names s ops _ h fun j hj => ?_
    simp only [step] at hj
    split at hj
    · cases hj
    · exact hj
  | start =>
    intro todo t a e
    rw [run_snoc] at e
    simp only [step] at e
    split at e
    · obtain ⟨p, done, h1, h2, h3, h4⟩ := h todo t a e
      exact ⟨p, done, h1.trans hp, h2, fun n hn => let ⟨r, a1, a2, a3⟩ := h3 n hn; ⟨r, a1, a2.trans hp, a3⟩, h4⟩
    · rename_i hj
      split at e
      · simp only [Option.some.injEq, Job.mk.injEq] at e
        obtain ⟨rfl, -, rfl⟩ := e
        exact ⟨ops, [], hp, rfl, by simp, fun _ _ => rfl⟩
      · rw [hj] at e; cases e
  | copy =>
    intro todo t a e
    rw [run_snoc] at e
    simp only [step] at e
    split at e
    · rename_i n todo' t' a' hj
      split at e
      · rename_i m c hs
        simp only [Option.some.injEq, Job.mk.injEq] at e
        obtain ⟨rfl, -, rfl⟩ := e
        obtain ⟨p, done, h1, h2, h3, h4⟩ := h _ _ _ hj
        refine ⟨p, done ++ [n], h1.trans hp, by rw [h2]; simp, ?_, ?_⟩
        · intro k hk
          by_cases hkn : k = n
          · subst hkn
            exact ⟨ops, h1, hp, m, c, hs, if_pos rfl⟩
          · have hkd : k ∈ done := by
              rcases List.mem_append.mp hk with h | h
              · exact h
              · exact absurd (List.mem_singleton.mp h) hkn
            obtain ⟨r, a1, a2, t, c', a3, a4⟩ := h3 k hkd
            exact ⟨r, a1, a2.trans hp, t, c', a3, (if_neg hkn).trans a4⟩
        · intro k hk
          simp only [List.mem_append, List.mem_singleton, not_or] at hk
          exact (if_neg hk.2).trans (h4 k hk.1)
      · cases e
    · obtain ⟨p, done, h1, h2, h3, h4⟩ := h todo t a e
      exact ⟨p, done, h1.trans hp, h2, fun n hn => let ⟨r, a1, a2, a3⟩ := h3 n hn; ⟨r, a1, a2.trans hp, a3⟩, h4⟩

theorem jobOk_all (names : List Nat) (s : St) (hs : Fresh s) (ops : List Op) : JobOk names s ops := by
  have key : ∀ l : List Op, JobOk names s l.reverse := by
    intro l
    induction l with
    | nil =>
      intro todo t a e
      rw [show run names s [].reverse = s from rfl, hs.2] at e
      cases e
    | cons o l ih =>
      rw [List.reverse_cons]
      exact jobOk_step names s _ o ih
  simpa using key ops.reverse

theorem dest_step (names : List Nat) (s : St) (o : Op) : (step names s o).dest = s.dest ∨
    (o = .finish ∧ ∃ t a, s.job = some ⟨[], t, a⟩ ∧ (step names s o).dest = some (t, a)) := by
  cases o with
  | tick => exact Or.inl rfl
  | write n c => exact Or.inl rfl
  | remove n => exact Or.inl rfl
  | fail => exact Or.inl rfl
  | start =>
    simp only [step]
    split
    · exact Or.inl rfl
    · split <;> exact Or.inl rfl
  | copy =>
    simp only [step]
    split
    · split <;> exact Or.inl rfl
    · exact Or.inl rfl
  | finish =>
    simp only [step]
    split
    · rename_i t a hj
      exact Or.inr ⟨trivial, t, a, hj, rfl⟩
    · exact Or.inl rfl

/-! ## C255 -/

/-- Whatever fails and however the sources change meanwhile: an archive is always whole. -/
theorem archive_whole (names : List Nat) (s : St) (hs : Fresh s) (ops : List Op) (t : Nat) (a : Nat → Option Nat)
    (h : (run names s ops).dest = some (t, a)) : ∃ p q, p <+: q ∧ q <+: ops ∧ Whole names s p q a := by
  have key : ∀ l : List Op, (run names s l.reverse).dest = some (t, a) → ∃ p q, p <+: q ∧ q <+: l.reverse ∧ Whole names s p q a := by
    intro l
    induction l with
    | nil =>
      intro e
      rw [show run names s [].reverse = s from rfl, hs.1] at e
      cases e
    | cons o l ih =>
      rw [List.reverse_cons]
      intro e
      have hp : l.reverse <+: l.reverse ++ [o] := List.prefix_append _ _
      rw [run_snoc] at e
      rcases dest_step names (run names s l.reverse) o with h1 | ⟨-, t', a', hj, h1⟩
      · rw [h1] at e
        obtain ⟨p, q, b1, b2, b3⟩ := ih e
        exact ⟨p, q, b1, b2.trans hp, b3⟩
      · rw [h1] at e
        simp only [Option.some.injEq, Prod.mk.injEq] at e
        obtain ⟨rfl, rfl⟩ := e
        obtain ⟨p, done, c1, c2, c3, c4⟩ := jobOk_all names s hs l.reverse [] t' a' hj
        rw [List.append_nil] at c2
        subst c2
        refine ⟨p, l.reverse, c1, hp, fun n hn hsrc => c3 n ((mem_sources names _ n).mpr ⟨hn, hsrc⟩), fun n hn => c4 n fun hm => ?_⟩
        have := (mem_sources names _ n).mp hm
        rcases hn with hn | hn
        · exact hn this.1
        · exact this.2 hn
  have := key ops.reverse
  rw [List.reverse_reverse] at this
  exact this h

/-- A failure leaves the archive as it was, and it is tried again the next time. -/
theorem failure_keeps (names : List Nat) (s : St) : (step names s .fail).dest = s.dest ∧ (step names s .fail).src = s.src ∧
    (∀ n todo t a, s.job = some ⟨n :: todo, t, a⟩ → s.src n = none → (step names s .copy).dest = s.dest ∧ (step names s .copy).job = none) ∧
    ((∃ n ∈ names, s.src n ≠ none) → needsRebuild names s = true → (step names (step names s .fail) .start).job ≠ none) := by
  refine ⟨rfl, rfl, ?_, ?_⟩
  · intro n todo t a hj hn
    simp only [step, hj, hn]
    exact ⟨trivial, trivial⟩
  · rintro ⟨n, hn, hs⟩ hneed
    have hsrc : sources names (step names s .fail) = sources names s := rfl
    have hne : sources names s ≠ [] := fun e => by
      have := (mem_sources names s n).mpr ⟨hn, hs⟩
      rw [e] at this
      cases this
    have hnd : needsRebuild names (step names s .fail) = needsRebuild names s := rfl
    intro e
    have hstep : (step names (step names s .fail) .start).job =
        (if !(sources names s).isEmpty && needsRebuild names s then { s with job := some ⟨sources names s, s.now, fun _ => none⟩ } else { s with job := none } : St).job := rfl
    rw [hstep, if_pos (by simp [hneed, hne])] at e
    cases e

/-- Nothing is done exactly if the archive is there and no source is newer, or there is no source. -/
theorem start_iff (names : List Nat) (s : St) (hj : s.job = none) : (step names s .start).job = none ↔
    (∀ n ∈ names, s.src n = none) ∨ ∃ t a, s.dest = some (t, a) ∧ ∀ n ∈ names, ∀ m c, s.src n = some (m, c) → m ≤ t := by
  have hempty : sources names s = [] ↔ ∀ n ∈ names, s.src n = none := by
    constructor
    · intro e n hn
      cases hs : s.src n with
      | none => rfl
      | some x =>
        have := (mem_sources names s n).mpr ⟨hn, by rw [hs]; simp⟩
        rw [e] at this
        cases this
    · intro h
      rw [List.eq_nil_iff_forall_not_mem]
      intro n hn
      have := (mem_sources names s n).mp hn
      exact this.2 (h n this.1)
  have hneed : needsRebuild names s = false ↔ ∃ t a, s.dest = some (t, a) ∧ ∀ n ∈ names, ∀ m c, s.src n = some (m, c) → m ≤ t := by
    unfold needsRebuild
    cases hd : s.dest with
    | none => simp
    | some x =>
      obtain ⟨t, a⟩ := x
      simp only [List.any_eq_false]
      constructor
      · intro h
        refine ⟨t, a, rfl, fun n hn m c hs => ?_⟩
        have := h n ((mem_sources names s n).mpr ⟨hn, by rw [hs]; simp⟩)
        rw [hs] at this
        simpa using this
      · rintro ⟨t', a', e, h⟩ n hn
        simp only [Option.some.injEq, Prod.mk.injEq] at e
        obtain ⟨rfl, rfl⟩ := e
        obtain ⟨h1, h2⟩ := (mem_sources names s n).mp hn
        cases hs : s.src n with
        | none => exact absurd hs h2
        | some x => simpa using h n h1 x.1 x.2 hs
  rw [← hempty, ← hneed]
  simp only [step, hj]
  constructor
  · intro h
    split at h
    · cases h
    · rename_i hc
      cases he : sources names s with
      | nil => exact Or.inl rfl
      | cons x xs =>
        rw [he] at hc
        exact Or.inr (by simpa using hc)
  · rintro (h | h)
    · rw [if_neg (by simp [h])]
      exact hj
    · rw [if_neg (by simp [h])]
      exact hj

/-- If what is not newer than the archive is in it, and nothing needs to be done, the archive is up to date. -/
theorem honest_current (names : List Nat) (s : St) (hh : Honest names s) (hn : needsRebuild names s = false) : UpToDate names s := by
  unfold needsRebuild at hn
  cases hd : s.dest with
  | none => rw [hd] at hn; cases hn
  | some x =>
    obtain ⟨t, a⟩ := x
    rw [hd] at hn
    simp only [List.any_eq_false] at hn
    refine ⟨t, a, hd, fun n hnm m c hs => hh t a hd n hnm m c hs ?_⟩
    have := hn n ((mem_sources names s n).mpr ⟨hnm, by rw [hs]; simp⟩)
    rw [hs] at this
    simpa using this

/-- It stays so if the sources change only while tar is not running, and not in the second in which the archive was written. -/
theorem honest_keeps_partial (names : List Nat) (s : St) (n c : Nat) (hh : Honest names s) (ht : ∀ t a, s.dest = some (t, a) → t < s.now) :
    Honest names (step names s (.write n c)) ∧ Honest names (step names s (.remove n)) ∧ Honest names (step names s .tick) ∧
    Honest names (step names s .fail) := by
  refine ⟨?_, ?_, hh, hh⟩
  · intro t a hd k hk m c' hs hm
    simp only [step] at hd hs
    split at hs
    · simp only [Option.some.injEq, Prod.mk.injEq] at hs
      have := ht t a hd
      omega
    · exact hh t a hd k hk m c' hs hm
  · intro t a hd k hk m c' hs hm
    simp only [step] at hd hs
    split at hs
    · cases hs
    · exact hh t a hd k hk m c' hs hm

theorem copies (names : List Nat) (todo : List Nat) : ∀ (s : St) (t : Nat) (a : Nat → Option Nat), s.job = some ⟨todo, t, a⟩ → (∀ n ∈ todo, s.src n ≠ none) →
    ∃ t' a', (run names s (List.replicate todo.length .copy)).job = some ⟨[], t', a'⟩ ∧ (run names s (List.replicate todo.length .copy)).src = s.src ∧
      (run names s (List.replicate todo.length .copy)).dest = s.dest ∧ (∀ n ∈ todo, a' n = (s.src n).map (·.2)) ∧ ∀ n, n ∉ todo → a' n = a n := by
  induction todo with
  | nil => intro s t a hj _; exact ⟨t, a, hj, rfl, rfl, by simp, fun _ _ => rfl⟩
  | cons n todo ih =>
    intro s t a hj hs
    cases hn : s.src n with
    | none => exact absurd hn (hs n (by simp))
    | some x =>
      obtain ⟨m, c⟩ := x
      have hst : step names s .copy = { s with job := some ⟨todo, s.now, fun k => if k = n then some c else a k⟩ } := by
        simp only [step, hj, hn]
      obtain ⟨t', a', h1, h2, h3, h4, h5⟩ := ih (step names s .copy) s.now (fun k => if k = n then some c else a k) (by rw [hst])
        (fun k hk => by rw [hst]; exact hs k (by simp [hk]))
      rw [List.length_cons, List.replicate_succ]
      refine ⟨t', a', h1, h2.trans (by rw [hst]), h3.trans (by rw [hst]), ?_, ?_⟩
      · intro k hk
        by_cases hkt : k ∈ todo
        · rw [h4 k hkt, hst]
        · have hkn : k = n := by
            rcases List.mem_cons.mp hk with h | h
            · exact h
            · exact absurd h hkt
          rw [h5 k hkt, hkn, hn]
          exact if_pos rfl
      · intro k hk
        simp only [List.mem_cons, not_or] at hk
        rw [h5 k hk.2]
        exact if_neg hk.1

theorem finish_step (names : List Nat) (s : St) (t : Nat) (a : Nat → Option Nat) (h : s.job = some ⟨[], t, a⟩) :
    step names s .finish = { s with dest := some (t, a), job := none } := by
  simp only [step, h]

/-- If nothing changes while it runs, the archive is up to date afterwards, whatever it was before. -/
theorem rebuild_current (names : List Nat) (s : St) (hj : s.job = none) (hsrc : ∃ n ∈ names, s.src n ≠ none) (hneed : needsRebuild names s = true) :
    ∃ k, UpToDate names (run names s (.start :: (List.replicate k .copy ++ [.finish]))) ∧ Honest names (run names s (.start :: (List.replicate k .copy ++ [.finish]))) := by
  obtain ⟨n0, hn0, hs0⟩ := hsrc
  have hne : sources names s ≠ [] := fun e => by
    have := (mem_sources names s n0).mpr ⟨hn0, hs0⟩
    rw [e] at this
    cases this
  have hst : step names s .start = { s with job := some ⟨sources names s, s.now, fun _ => none⟩ } := by
    simp only [step, hj]
    rw [if_pos (by simp [hne, hneed])]
  obtain ⟨t', a', h1, h2, h3, h4, h5⟩ := copies names (sources names s) (step names s .start) s.now (fun _ => none) (by rw [hst])
    (fun k hk => by rw [hst]; exact ((mem_sources names s k).mp hk).2)
  refine ⟨(sources names s).length, ?_⟩
  rw [run, run_append, run, run]
  have hfin := finish_step names _ t' a' h1
  have h2' : (run names (step names s .start) (List.replicate (sources names s).length .copy)).src = s.src := h2.trans (by rw [hst])
  have hin : ∀ k ∈ names, ∀ m c, s.src k = some (m, c) → a' k = some c := by
    intro k hk m c hs
    rw [h4 k ((mem_sources names s k).mpr ⟨hk, by rw [hs]; simp⟩), hst]
    simp only [hs, Option.map_some]
  rw [hfin]
  constructor
  · refine ⟨t', a', rfl, fun k hk m c hs => ?_⟩
    simp only [h2'] at hs
    exact hin k hk m c hs
  · intro t a hd k hk m c hs _
    simp only [Option.some.injEq, Prod.mk.injEq] at hd
    simp only [h2'] at hs
    rw [← hd.2]
    exact hin k hk m c hs

def s0 : St := ⟨5, fun _ => none, none, none⟩

/-- False: that an archive for which nothing is to be done is up to date. A source that changes in the second in which the archive is written is not newer. -/
theorem same_second_false : ∃ ops : List Op, needsRebuild [1] (run [1] s0 ops) = false ∧ ¬ UpToDate [1] (run [1] s0 ops) := by
  refine ⟨[.write 1 7, .tick, .start, .copy, .finish, .write 1 8], by decide, ?_⟩
  rintro ⟨t, a, hd, h⟩
  have h1 := h 1 (by simp) 6 8 rfl
  cases hd
  exact absurd h1 (by decide)

/-- False: a source that changes after it was copied, while tar is copying the others, is older than the archive. -/
theorem while_running_false : ∃ ops : List Op, (∀ m c, (run [1, 2] s0 ops).src 1 = some (m, c) → m < (run [1, 2] s0 ops).now) ∧ needsRebuild [1, 2] (run [1, 2] s0 ops) = false ∧
    ¬ UpToDate [1, 2] (run [1, 2] s0 ops) := by
  refine ⟨[.write 1 7, .write 2 7, .tick, .start, .copy, .tick, .write 1 8, .tick, .copy, .finish], ?_, by decide, ?_⟩
  · intro m c h
    cases h
    decide
  rintro ⟨t, a, hd, h⟩
  have h1 := h 1 (by simp) 7 8 rfl
  cases hd
  exact absurd h1 (by decide)

/-- False: that a file that is removed also leaves the archive. -/
theorem removed_false : ∃ ops : List Op, needsRebuild [1, 2] (run [1, 2] s0 ops) = false ∧ (run [1, 2] s0 ops).src 2 = none ∧
    ∃ t a, (run [1, 2] s0 ops).dest = some (t, a) ∧ a 2 = some 7 := by
  exact ⟨[.write 1 7, .write 2 7, .tick, .start, .copy, .copy, .finish, .tick, .remove 2], by decide, by decide, _, _, rfl, by decide⟩

/-! ### The hypotheses are met -/

example : Fresh s0 := ⟨rfl, rfl⟩

example : ∃ t a, (run [1, 2] s0 [.write 1 7, .write 2 9, .start, .copy, .tick, .copy, .finish]).dest = some (t, a) ∧ a 1 = some 7 ∧ a 2 = some 9 := ⟨_, _, rfl, by decide, by decide⟩

example : Honest [1] s0 := fun _ _ h => by cases h

example : (run [1] s0 [.write 1 7]).job = none ∧ (∃ n ∈ [1], (run [1] s0 [.write 1 7]).src n ≠ none) ∧ needsRebuild [1] (run [1] s0 [.write 1 7]) = true :=
  ⟨rfl, ⟨1, by simp, by decide⟩, by decide⟩

end Verif.Batch.TarRun
