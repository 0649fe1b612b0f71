import Verif.Deptool.Tests

/-!
# deptool: every test is run once, the sequential ones alone, never too many
-/

namespace Verif.Deptool.Tests

/-! ## Specification -/

/-- The tests that are running. -/
def now : List Ev → List Nat
  | [] => []
  | .start i :: log => now log ++ [i]
  | .finish i :: log => (now log).filter fun j => decide (j ≠ i)

/-- What may happen: a test is started once, when there is room, a sequential one when nothing is running, and nothing while a sequential one is running. -/
def Legal (par : Nat) (seq : Nat → Prop) : List Ev → Prop
  | [] => True
  | .start i :: log => .start i ∉ log ∧ (now log).length < par ∧ (seq i → now log = []) ∧ (∀ j ∈ now log, ¬ seq j) ∧ Legal par seq log
  | .finish i :: log => i ∈ now log ∧ Legal par seq log

/-! ## Proofs -/

structure Inv (par : Nat) (seq : Nat → Prop) (s : St) : Prop where
  now : s.running = now s.log
  nodup : s.running.Nodup
  legal : Legal par seq s.log

variable {env : Env} {par : Nat} {seq : Nat → Prop} {s : St}

theorem finish_many (l : List Nat) (log : List Ev) (hl : l.Nodup) (hs : ∀ i ∈ l, i ∈ now log) (hL : Legal par seq log) :
    now ((l.map Ev.finish).reverse ++ log) = (now log).filter (fun j => decide (j ∉ l)) ∧ Legal par seq ((l.map Ev.finish).reverse ++ log) := by
  induction l generalizing log with
  | nil =>
    refine ⟨?_, hL⟩
    simp only [List.not_mem_nil, not_false_eq_true, decide_true]
    exact (List.filter_eq_self.2 (by simp)).symm
  | cons a l ih =>
    rw [List.nodup_cons] at hl
    have e : ((a :: l).map Ev.finish).reverse ++ log = (l.map Ev.finish).reverse ++ (.finish a :: log) := by simp
    rw [e]
    have := ih (.finish a :: log) hl.2 (by
      intro i hi
      simp only [now, List.mem_filter, decide_eq_true_eq]
      exact ⟨hs i (List.mem_cons_of_mem _ hi), fun e => hl.1 (e ▸ hi)⟩) ⟨hs a List.mem_cons_self, hL⟩
    refine ⟨?_, this.2⟩
    rw [this.1]
    simp only [now, List.filter_filter]
    apply List.filter_congr
    intro x _
    by_cases h1 : x = a <;> by_cases h2 : x ∈ l <;> simp [h1, h2]

theorem gone_sub (env : Env) (s : St) : List.Sublist (gone env s) s.running := by
  unfold gone
  split
  · exact List.take_sublist _ _
  · exact List.filter_sublist

theorem inv_wait (h : Inv par seq s) : Inv par seq (wait env s) := by
  have hs := gone_sub env s
  have := finish_many (par := par) (seq := seq) (gone env s) s.log (h.nodup.sublist hs) (fun i hi => by rw [← h.now]; exact hs.subset hi) h.legal
  refine ⟨?_, ?_, this.2⟩
  · show (s.running.filter fun i => decide (i ∉ gone env s)) = now (((gone env s).map Ev.finish).reverse ++ s.log)
    rw [this.1, h.now]
  · exact h.nodup.sublist List.filter_sublist

theorem gone_ne (env : Env) (h : s.running ≠ []) : gone env s ≠ [] := by
  unfold gone
  split
  · cases hr : s.running with
    | nil => exact absurd hr h
    | cons a l => simp
  · assumption

theorem wait_less (env : Env) (h : s.running ≠ []) : (wait env s).running.length < s.running.length := by
  obtain ⟨a, ha⟩ := List.exists_mem_of_ne_nil _ (gone_ne env h)
  have hm := (gone_sub env s).subset ha
  show (s.running.filter fun i => decide (i ∉ gone env s)).length < s.running.length
  apply List.length_filter_lt_length_iff_exists.2
  exact ⟨a, hm, by simp [ha]⟩

theorem wait_sub (env : Env) (s : St) : ∀ i ∈ (wait env s).running, i ∈ s.running := by
  intro i hi
  exact (List.mem_filter.1 hi).1

/-- What has been started. -/
theorem wait_started (env : Env) (s : St) (i : Nat) : .start i ∈ (wait env s).log ↔ .start i ∈ s.log := by
  show Ev.start i ∈ ((gone env s).map Ev.finish).reverse ++ s.log ↔ _
  simp

theorem waitBelow_spec (limit : Nat) (hl : 1 ≤ limit) (fuel : Nat) (h : Inv par seq s) (hf : s.running.length ≤ fuel) :
    Inv par seq (waitBelow env limit fuel s) ∧ (waitBelow env limit fuel s).running.length < limit ∧ (∀ i ∈ (waitBelow env limit fuel s).running, i ∈ s.running) ∧
      ∀ i, .start i ∈ (waitBelow env limit fuel s).log ↔ .start i ∈ s.log := by
  induction fuel generalizing s with
  | zero => exact ⟨h, (by show s.running.length < limit; omega), fun i hi => hi, fun i => Iff.rfl⟩
  | succ fuel ih =>
    unfold waitBelow
    split
    · rename_i hle
      have hne : s.running ≠ [] := by
        intro e; rw [e] at hle; simp at hle; omega
      have hlt := wait_less env hne
      obtain ⟨h1, h2, h3, h4⟩ := ih (inv_wait (env := env) h) (by omega)
      exact ⟨h1, h2, fun i hi => wait_sub env s i (h3 i hi), fun i => (h4 i).trans (wait_started env s i)⟩
    · exact ⟨h, by omega, fun i hi => hi, fun i => Iff.rfl⟩

theorem inv_startTest (h : Inv par seq s) (i : Nat) (hi : .start i ∉ s.log) (hn : i ∉ s.running) (hp : s.running.length < par) (h1 : seq i → s.running = []) (h2 : ∀ j ∈ s.running, ¬ seq j) :
    Inv par seq (startTest s i) := by
  refine ⟨?_, ?_, hi, ?_, ?_, ?_, h.legal⟩
  · show s.running ++ [i] = now s.log ++ [i]
    rw [h.now]
  · show (s.running ++ [i]).Nodup
    rw [List.nodup_append]
    refine ⟨h.nodup, by simp, ?_⟩
    intro a ha b hb
    rw [List.mem_singleton.1 hb]
    exact fun e => hn (e ▸ ha)
  · rw [← h.now]; exact hp
  · rw [← h.now]; exact h1
  · rw [← h.now]; exact h2

/-- A running test has been started. -/
theorem now_started (log : List Ev) (i : Nat) (h : i ∈ now log) : .start i ∈ log := by
  induction log with
  | nil => cases h
  | cons e log ih =>
    cases e with
    | start j =>
      simp only [now, List.mem_append, List.mem_singleton] at h
      rcases h with h | rfl
      · exact List.mem_cons_of_mem _ (ih h)
      · exact List.mem_cons_self
    | finish j =>
      simp only [now, List.mem_filter] at h
      exact List.mem_cons_of_mem _ (ih h.1)

theorem sequential_spec (hp : 1 ≤ par) (is seen : List Nat) (h : Inv par seq s) (hr : s.running = []) (hs : ∀ i, .start i ∈ s.log ↔ i ∈ seen) (hseq : ∀ i ∈ is, seq i) :
    ∃ seen' s', sequential env is seen s = some (seen', s') ∧ Inv par seq s' ∧ s'.running = [] ∧ (∀ i, .start i ∈ s'.log ↔ i ∈ seen') ∧ ∀ i, i ∈ seen' ↔ i ∈ seen ∨ i ∈ is := by
  induction is generalizing seen s with
  | nil => exact ⟨seen, s, rfl, h, hr, hs, by simp⟩
  | cons i is ih =>
    unfold sequential
    split
    · rename_i hm
      obtain ⟨seen', s', h1, h2, h3, h4, h5⟩ := ih seen h hr hs (fun j hj => hseq j (List.mem_cons_of_mem _ hj))
      refine ⟨seen', s', h1, h2, h3, h4, ?_⟩
      intro j
      rw [h5 j]
      constructor
      · rintro (h | h)
        · exact Or.inl h
        · exact Or.inr (List.mem_cons_of_mem _ h)
      · rintro (h | h)
        · exact Or.inl h
        · rcases List.mem_cons.1 h with rfl | h
          · exact Or.inl hm
          · exact Or.inr h
    · rename_i hm
      have hst := inv_startTest h i (fun hx => hm ((hs i).1 hx)) (by rw [hr]; simp) (by rw [hr]; exact hp) (fun _ => hr) (by rw [hr]; simp)
      have hrun : (startTest s i).running = [i] := by simp [startTest, hr]
      have hlt := wait_less env (s := startTest s i) (by rw [hrun]; simp)
      have hempty : (wait env (startTest s i)).running = [] := by
        rw [hrun] at hlt
        simp only [List.length_singleton] at hlt
        exact List.eq_nil_of_length_eq_zero (by omega)
      rw [if_pos hempty]
      obtain ⟨seen', s', h1, h2, h3, h4, h5⟩ := ih (i :: seen) (inv_wait (env := env) hst) hempty (by
        intro j
        rw [wait_started]
        show Ev.start j ∈ Ev.start i :: s.log ↔ j ∈ i :: seen
        simp only [List.mem_cons, Ev.start.injEq]
        rw [hs j]) (fun j hj => hseq j (List.mem_cons_of_mem _ hj))
      refine ⟨seen', s', h1, h2, h3, h4, ?_⟩
      intro j
      rw [h5 j]
      simp only [List.mem_cons]
      constructor
      · rintro ((h | h) | h)
        · exact Or.inr (Or.inl h)
        · exact Or.inl h
        · exact Or.inr (Or.inr h)
      · rintro (h | h | h)
        · exact Or.inl (Or.inr h)
        · exact Or.inl (Or.inl h)
        · exact Or.inr h

theorem parallel_spec (hp : 1 ≤ par) (seen : List Nat) (hseen : ∀ i, i ∉ seen → ¬ seq i) (k : Nat) (h : Inv par seq s) (hl : s.running.length < par) (hrs : ∀ i ∈ s.running, i ∉ seen)
    (n : Nat) (hk : k ≤ n) (hs : ∀ i, .start i ∈ s.log ↔ i ∈ seen ∨ (k < i ∧ i ≤ n)) :
    Inv par seq (parallel env par seen k s) ∧ ∀ i, .start i ∈ (parallel env par seen k s).log ↔ i ∈ seen ∨ (0 < i ∧ i ≤ n) := by
  induction k generalizing s with
  | zero => exact ⟨h, hs⟩
  | succ k ih =>
    unfold parallel
    split
    · rename_i hm
      refine ih h hl hrs (by omega) ?_
      intro i
      rw [hs i]
      constructor
      · rintro (h | h)
        · exact Or.inl h
        · exact Or.inr ⟨by omega, h.2⟩
      · rintro (h | h)
        · exact Or.inl h
        · by_cases e : i = k + 1
          · left; rw [e]; exact hm
          · exact Or.inr ⟨by omega, h.2⟩
    · rename_i hm
      have hns : Ev.start (k + 1) ∉ s.log := by
        intro hx
        rcases (hs (k + 1)).1 hx with h | h
        · exact hm h
        · omega
      have hst := inv_startTest h (k + 1) hns (fun hx => hns (now_started _ _ (by rw [← h.now]; exact hx))) hl (fun hq => absurd hq (hseen _ hm)) (fun j hj => hseen j (hrs j hj))
      obtain ⟨h1, h2, h3, h4⟩ := waitBelow_spec (env := env) par hp (startTest s (k + 1)).running.length hst (Nat.le_refl _)
      refine ih h1 h2 ?_ (by omega) ?_
      · intro i hi
        have := h3 i hi
        simp only [startTest, List.mem_append, List.mem_singleton] at this
        rcases this with h | rfl
        · exact hrs i h
        · exact hm
      · intro i
        rw [h4 i]
        show Ev.start i ∈ Ev.start (k + 1) :: s.log ↔ _
        simp only [List.mem_cons, Ev.start.injEq]
        rw [hs i]
        constructor
        · rintro (h | h | h)
          · right; omega
          · exact Or.inl h
          · right; omega
        · rintro (h | h)
          · exact Or.inr (Or.inl h)
          · by_cases e : i = k + 1
            · exact Or.inl e
            · exact Or.inr (Or.inr ⟨by omega, h.2⟩)

/-- A test that was started and is not running has ended. -/
theorem started_finished (log : List Ev) (hL : Legal par seq log) (i : Nat) (h : .start i ∈ log) (hn : i ∉ now log) : .finish i ∈ log := by
  induction log with
  | nil => cases h
  | cons e log ih =>
    cases e with
    | start j =>
      simp only [now, List.mem_append, List.mem_singleton, not_or] at hn
      rcases List.mem_cons.1 h with e | h
      · cases e; exact absurd rfl hn.2
      · exact List.mem_cons_of_mem _ (ih hL.2.2.2.2 h hn.1)
    | finish j =>
      rcases List.mem_cons.1 h with e | h
      · cases e
      · by_cases e : i = j
        · subst e; exact List.mem_cons_self
        · refine List.mem_cons_of_mem _ (ih hL.2 h ?_)
          intro hx
          apply hn
          simp only [now, List.mem_filter, decide_eq_true_eq]
          exact ⟨hx, e⟩

theorem mem_matches (n : Nat) (patterns : List (Nat → Bool)) (is : List Nat) (h : matches? n patterns = some is) (i : Nat) : i ∈ is ↔ (0 < i ∧ i ≤ n) ∧ ∃ p ∈ patterns, p i = true := by
  unfold matches? at h
  split at h
  · simp only [Option.some.injEq] at h
    subst h
    simp only [List.mem_flatMap, List.mem_filter, List.mem_map, List.mem_range]
    constructor
    · rintro ⟨p, hp, ⟨a, ha, rfl⟩, hpi⟩
      exact ⟨⟨by omega, by omega⟩, p, hp, hpi⟩
    · rintro ⟨⟨h1, h2⟩, p, hp, hpi⟩
      exact ⟨p, hp, ⟨i - 1, by omega, by omega⟩, hpi⟩
  · cases h

/-- C169: whichever tests end when, every test is run exactly once, never more than `par` at a time, those that a pattern of `sequential_tests` matches alone; and the exit status is 0 exactly if all tests pass. -/
theorem tests_run (env : Env) (par n : Nat) (patterns : List (Nat → Bool)) (hp : 1 ≤ par) (log : List Ev) (code : Nat) (h : doTests env par n patterns = some (log, code)) :
    Legal par (fun i => (0 < i ∧ i ≤ n) ∧ ∃ p ∈ patterns, p i = true) log ∧ (∀ i, .start i ∈ log ↔ 0 < i ∧ i ≤ n) ∧ (∀ i, .finish i ∈ log ↔ 0 < i ∧ i ≤ n) ∧ now log = [] ∧
      (code = 0 ↔ ∀ i, 0 < i → i ≤ n → env.passes i = true) := by
  unfold doTests at h
  split at h
  · cases h
  · cases hm : matches? n patterns with
    | none => rw [hm] at h; cases h
    | some is =>
      rw [hm] at h
      simp only at h
      have hmem := mem_matches n patterns is hm
      obtain ⟨seen, s, h1, h2, h3, h4, h5⟩ := sequential_spec (env := env) (s := {}) (seq := fun i => (0 < i ∧ i ≤ n) ∧ ∃ p ∈ patterns, p i = true) hp is [] ⟨rfl, List.nodup_nil, trivial⟩ rfl (by simp) (fun i hi => (hmem i).1 hi)
      rw [h1] at h
      simp only [Option.some.injEq, Prod.mk.injEq] at h
      have hseen : ∀ i, i ∈ seen ↔ (0 < i ∧ i ≤ n) ∧ ∃ p ∈ patterns, p i = true := by
        intro i
        rw [h5 i, ← hmem i]
        simp
      obtain ⟨p1, p2⟩ := parallel_spec (env := env) hp seen (fun i hi hq => hi ((hseen i).2 hq)) n h2 (by rw [h3]; exact hp) (by rw [h3]; simp) n (Nat.le_refl _) (by
        intro i
        rw [h4 i]
        constructor
        · exact Or.inl
        · rintro (h | h)
          · exact h
          · omega)
      obtain ⟨q1, q2, q3, q4⟩ := waitBelow_spec (env := env) 1 (Nat.le_refl _) (parallel env par seen n s).running.length p1 (Nat.le_refl _)
      have hstart : ∀ i, .start i ∈ log ↔ 0 < i ∧ i ≤ n := by
        intro i
        rw [← h.1, q4 i, p2 i]
        constructor
        · rintro (h | h)
          · exact ((hseen i).1 h).1
          · exact h
        · exact Or.inr
      have hnow : now log = [] := by
        rw [← h.1, ← q1.now]
        exact List.eq_nil_of_length_eq_zero (by omega)
      have hleg : Legal par (fun i => (0 < i ∧ i ≤ n) ∧ ∃ p ∈ patterns, p i = true) log := by
        rw [← h.1]; exact q1.legal
      have hfs : ∀ (log : List Ev), Legal par (fun i => (0 < i ∧ i ≤ n) ∧ ∃ p ∈ patterns, p i = true) log → ∀ i, .finish i ∈ log → .start i ∈ log := by
        intro log
        induction log with
        | nil => intro _ i hi; cases hi
        | cons e log ih =>
          intro hL i hi
          cases e with
          | start j =>
            rcases List.mem_cons.1 hi with e | hi
            · cases e
            · exact List.mem_cons_of_mem _ (ih hL.2.2.2.2 i hi)
          | finish j =>
            rcases List.mem_cons.1 hi with e | hi
            · cases e
              exact List.mem_cons_of_mem _ (now_started _ _ hL.1)
            · exact List.mem_cons_of_mem _ (ih hL.2 i hi)
      refine ⟨hleg, hstart, ?_, hnow, ?_⟩
      · intro i
        constructor
        · intro hf; exact (hstart i).1 (hfs log hleg i hf)
        · intro hi
          exact started_finished log hleg i ((hstart i).2 hi) (by rw [hnow]; simp)
      · rw [← h.2]
        constructor
        · intro hc i h1 h2
          by_cases ha : ((List.range n).all fun i => env.passes (i + 1)) = true
          · have := List.all_eq_true.1 ha (i - 1) (List.mem_range.2 (by omega))
            rwa [show i - 1 + 1 = i by omega] at this
          · rw [if_neg ha] at hc; cases hc
        · intro ha
          rw [if_pos]
          exact List.all_eq_true.2 fun i hi => ha (i + 1) (by omega) (by have := List.mem_range.1 hi; omega)

/-- C169: it dies only without tests or if a pattern matches none. -/
theorem tests_dies (env : Env) (par n : Nat) (patterns : List (Nat → Bool)) :
    doTests env par n patterns = none ↔ n = 0 ∨ ∃ p ∈ patterns, ∀ i, 0 < i → i ≤ n → p i = false := by
  unfold doTests
  split
  · rename_i e; simp [e]
  · rename_i e
    have hm : matches? n patterns = none ↔ ∃ p ∈ patterns, ∀ i, 0 < i → i ≤ n → p i = false := by
      unfold matches?
      split
      · rename_i ha
        simp only [reduceCtorEq, false_iff]
        rintro ⟨p, hp, hno⟩
        have := List.all_eq_true.1 ha p hp
        obtain ⟨i, hi, hpi⟩ := List.any_eq_true.1 this
        rw [hno (i + 1) (by omega) (by have := List.mem_range.1 hi; omega)] at hpi
        cases hpi
      · rename_i ha
        simp only [true_iff]
        simp only [List.all_eq_true, Classical.not_forall, Bool.not_eq_true] at ha
        obtain ⟨p, hp, hno⟩ := ha
        refine ⟨p, hp, fun i h1 h2 => ?_⟩
        have := List.any_eq_false.1 hno (i - 1) (List.mem_range.2 (by omega))
        rw [show i - 1 + 1 = i by omega] at this
        simpa using this
    cases hmm : matches? n patterns with
    | none =>
      simp only [true_iff]
      exact Or.inr (hm.1 hmm)
    | some is =>
      obtain ⟨seen, s, h1, _⟩ := sequential_spec (env := env) (s := {}) (par := 1) (seq := fun _ => True) (Nat.le_refl _) is [] ⟨rfl, List.nodup_nil, trivial⟩ rfl (by simp) (fun i hi => trivial)
      simp only [h1, reduceCtorEq, false_iff]
      rintro (h | h)
      · exact e h
      · rw [hm.2 h] at hmm; cases hmm

/-- Five tests, two at a time, test 2 alone. -/
example : doTests { ends := fun _ => [], passes := fun i => decide (i ≠ 4) } 2 5 [fun i => decide (i = 2)] =
    some ([.finish 1, .finish 3, .start 1, .finish 4, .start 3, .finish 5, .start 4, .start 5, .finish 2, .start 2], 1) := by decide +kernel

end Verif.Deptool.Tests
