import Verif.Spin.Lemmas

/-! # Properties of the spin locks (C49, C83) -/

namespace Verif.Spin

/-- **C83, one holder.** `GlibcPosixSpinLock` and `SpinLockYield`, for up to 2^31 threads and every schedule: no two
threads are between `lock` and `unlock` at once. -/
theorem spin_mutual_exclusion (k : Kind) (hk : k ≠ .atomic) (ovf : Bool) (N : Nat) (hN : N ≤ 2 ^ 31) (sched : List Nat)
    (hs : ∀ t ∈ sched, t < N) :
    ∃ s, run k ovf initial sched = .ok s ∧ ∀ t u, s.pc t = .crit → s.pc u = .crit → t = u := by
  have hrun : ∀ (l : List Nat) (s : State), ∃ s', run k ovf s l = .ok s' := by
    intro l
    induction l with
    | nil => exact fun s => ⟨s, rfl⟩
    | cons t l ih =>
      intro s
      obtain ⟨s1, h1⟩ := step_defined (ovf := ovf) (Or.inl hk) s t
      obtain ⟨s2, h2⟩ := ih s1
      exact ⟨s2, by simp only [run, h1, Res.bind_ok, h2]⟩
  obtain ⟨s, h⟩ := hrun sched initial
  refine ⟨s, h, ?_⟩
  cases (full_run hk hN sched initial s hs (full_initial k N) h).1 with
  | free h1 _ => exact fun t u ht => absurd ht (h1 t)
  | held hd S h1 => exact fun t u ht hu => by rw [(h1 t).1 ht, (h1 u).1 hu]

/-- Contention that meets the hypotheses: thread 1 is inside while 0 and 2 wait, then leaves and 2 gets in. -/
example : ∃ s, run .glibc true initial [1, 1, 0, 0, 2, 2, 0, 2, 1, 2, 2] = .ok s ∧ s.pc 2 = .crit ∧ s.pc 0 = .spin 0 ∧
    s.pc 1 = .idle := ⟨_, rfl, by decide, by decide, by decide⟩
example : ∃ s, run .yield true initial [1, 0, 1, 0, 1, 0, 0, 0, 0, 0, 1, 0, 0] = .ok s ∧ s.pc 0 = .crit ∧ s.pc 1 = .idle :=
  ⟨_, rfl, by decide, by decide⟩

/-- `t` is inside `lock()` and has not got it yet. -/
def Waiting (p : PC) : Prop := p ≠ .idle ∧ p ≠ .crit

/-- **C83, no lost wake-up.** Whenever nobody holds the lock, any thread that is waiting gets it after at most three of
its own steps if the others pause. -/
theorem spin_progress (k : Kind) (hk : k ≠ .atomic) (ovf : Bool) (N : Nat) (hN : N ≤ 2 ^ 31) (sched : List Nat)
    (hs : ∀ t ∈ sched, t < N) (s : State) (h : run k ovf initial sched = .ok s) (hfree : ∀ t, s.pc t ≠ .crit) (t : Nat)
    (hw : Waiting (s.pc t)) : ∃ n s', n ≤ 3 ∧ run k ovf s (List.replicate n t) = .ok s' ∧ s'.pc t = .crit := by
  have hf := full_run hk hN sched initial s hs (full_initial k N) h
  have hv : s.val = 1 := by
    cases hf.1 with
    | free _ hv => exact hv
    | held hd S h1 => exact absurd ((h1 hd).2 rfl) (hfree hd)
  have hdec : ∀ (s : State) (n : Nat), s.val = 1 → s.pc t = .dec n → (k = .yield → 0 < n) →
      ∃ s', step k ovf s t = .ok s' ∧ s'.pc t = .crit := by
    intro s n hv hp hn
    unfold step
    rw [hp]
    simp only [hk, false_and, if_false]
    refine ⟨_, rfl, ?_⟩
    have hz : s.val - 1 = 0 := by rw [hv]; rfl
    simp only [hz, if_true]
    show (s.goto t _).pc t = _
    rw [goto_same]
    cases k with
    | glibc => rfl
    | atomic => rfl
    | yield =>
      have := hn rfl
      cases n with
      | zero => omega
      | succ n => rfl
  have two : ∀ (p : Nat), step k ovf s t = .ok (s.goto t (.dec p)) → (k = .yield → 0 < p) →
      ∃ n s', n ≤ 3 ∧ run k ovf s (List.replicate n t) = .ok s' ∧ s'.pc t = .crit := by
    intro p h1 hp
    obtain ⟨s2, h2, h3⟩ := hdec (s.goto t (.dec p)) p hv (goto_same _ _ _) hp
    exact ⟨2, s2, by omega, by simp only [List.replicate, run, h1, h2, Res.bind_ok], h3⟩
  cases hp : s.pc t with
  | idle => exact absurd hp hw.1
  | crit => exact absurd hp hw.2
  | dec n =>
    obtain ⟨s1, h1, h2⟩ := hdec s n hv hp (fun hy => hf.2 hy t n (Or.inl hp))
    exact ⟨1, s1, by omega, by simp only [List.replicate, run, h1, Res.bind_ok], h2⟩
  | test0 =>
    refine two 4 ?_ (fun _ => by omega)
    unfold step; rw [hp]; simp only [hv, if_true]
  | spin n =>
    cases k with
    | glibc =>
      refine two 0 ?_ (fun h => by cases h)
      unfold step; rw [hp, hv]; rfl
    | atomic => exact absurd rfl hk
    | yield =>
      refine two n ?_ (fun h => hf.2 h t n (Or.inr hp))
      unfold step; rw [hp]; simp only [waitStep, hv, if_true]

/-- A state that meets the hypotheses: released while 0 and 2 wait. -/
example : ∃ s, run .glibc true initial [1, 1, 0, 0, 2, 2, 0, 2, 1] = .ok s ∧ (∀ t, t < 3 → s.pc t ≠ .crit) ∧
    Waiting (s.pc 0) ∧ Waiting (s.pc 2) :=
  ⟨_, rfl, by decide, by constructor <;> decide, by constructor <;> decide⟩

/-- **C49, partial.** `AtomicSpinLock`, for any number of threads: as long as at most 2^31 decrements are made
between two releases, nothing is undefined, no two threads hold the lock at once, and when nobody holds it any waiting
thread gets it with its next step. Missing for the full statement: longer contention, for which it is false
(`atomic_spin_undefined`, `atomic_spin_two_holders`). -/
theorem atomic_spin_partial (ovf : Bool) (sched : List Nat) (hb : TriesAtMost .atomic ovf (2 ^ 31) initial sched) :
    ∃ s, run .atomic ovf initial sched = .ok s ∧ (∀ t u, s.pc t = .crit → s.pc u = .crit → t = u) ∧
      ((∀ t, s.pc t ≠ .crit) → ∀ t, Waiting (s.pc t) → (∃ n, s.pc t = .dec n) ∧ ∃ s', step .atomic ovf s t = .ok s' ∧ s'.pc t = .crit) := by
  have small : TriesAtMost .atomic ovf (2 ^ 32 - 2) initial sched := fun pre post s' e h => by
    have := hb pre post s' e h
    omega
  -- the word is never at the smallest value when a decrement starts
  have key : ∀ (l : List Nat) (s : State), AInv s → (∀ t, (∃ n, s.pc t = .dec n) ∨ s.pc t = .idle ∨ s.pc t = .crit) →
      TriesAtMost .atomic ovf (2 ^ 31) s l →
      ∃ s', run .atomic ovf s l = .ok s' ∧ AInv s' ∧ ∀ t, (∃ n, s'.pc t = .dec n) ∨ s'.pc t = .idle ∨ s'.pc t = .crit := by
    intro l
    induction l with
    | nil => exact fun s hi hp _ => ⟨s, rfl, hi, hp⟩
    | cons t l ih =>
      intro s hi hp hb
      have h0 := hb [] (t :: l) s rfl rfl
      have hmin : s.val ≠ BitVec.intMin 32 := by
        rw [hi.val]
        intro h
        have h2 := congrArg BitVec.toNat h
        simp only [BitVec.toNat_sub, BitVec.toNat_ofNat, BitVec.ofNat_eq_ofNat, BitVec.toNat_intMin] at h2
        omega
      have hdef : ∃ s1, step .atomic ovf s t = .ok s1 := by
        unfold step
        split
        · exact ⟨_, rfl⟩
        · exact ⟨_, rfl⟩
        · exact ⟨_, rfl⟩
        · exact ⟨_, rfl⟩
        · rw [if_neg (by simp [hmin])]; exact ⟨_, rfl⟩
      obtain ⟨s1, h1⟩ := hdef
      have hp1 : ∀ u, (∃ n, s1.pc u = .dec n) ∨ s1.pc u = .idle ∨ s1.pc u = .crit := by
        have go : ∀ p : PC, ((∃ n, p = .dec n) ∨ p = .idle ∨ p = .crit) → ∀ u,
            (∃ n, (s.goto t p).pc u = .dec n) ∨ (s.goto t p).pc u = .idle ∨ (s.goto t p).pc u = .crit := by
          intro p h u
          by_cases hut : u = t
          · subst hut; rw [goto_same]; exact h
          · rw [goto_other _ _ _ hut]; exact hp u
        unfold step at h1
        split at h1
        · cases h1; exact go _ (Or.inl ⟨0, rfl⟩)
        · cases h1; exact go _ (Or.inr (Or.inl rfl))
        · next hpc => rcases hp t with ⟨n, h⟩ | h | h <;> rw [hpc] at h <;> cases h
        · next hpc => rcases hp t with ⟨n, h⟩ | h | h <;> rw [hpc] at h <;> cases h
        · split at h1
          · cases h1
          · cases h1
            refine go _ ?_
            split
            · exact Or.inr (Or.inr rfl)
            · exact Or.inl ⟨0, rfl⟩
      obtain ⟨s2, h2, h3, h4⟩ := ih s1 (ainv_step hi (by omega) h1) hp1 (fun pre post s' e hr =>
        hb (t :: pre) post s' (by rw [e]; rfl) (by simp only [run, h1, Res.bind_ok]; exact hr))
      exact ⟨s2, by simp only [run, h1, Res.bind_ok, h2], h3, h4⟩
  obtain ⟨s, h1, h2, h3⟩ := key sched initial ainv_initial (fun _ => Or.inr (Or.inl rfl)) hb
  refine ⟨s, h1, fun t u ht hu => (((h2.held t ht).2 u hu).symm), ?_⟩
  intro hfree t hw
  obtain ⟨n, hn⟩ : ∃ n, s.pc t = .dec n := by
    rcases h3 t with h | h | h
    · exact h
    · exact absurd h hw.1
    · exact absurd h hw.2
  refine ⟨⟨n, hn⟩, ?_⟩
  have hv : s.val = 1 := by rw [h2.val, h2.free hfree]; decide
  unfold step
  rw [hn]
  have : ¬ (Kind.atomic = .atomic ∧ ovf = true ∧ s.val = BitVec.intMin 32) := by rw [hv]; rintro ⟨_, _, h⟩; revert h; decide
  show ∃ s', (ite (Kind.atomic = .atomic ∧ ovf = true ∧ s.val = BitVec.intMin 32) _ _) = Res.ok s' ∧ _
  rw [if_neg this]
  refine ⟨_, rfl, ?_⟩
  rw [hv]
  show (s.goto t (if (1 : BitVec 32) - 1 = 0 then afterZero .atomic n else afterFail .atomic n)).pc t = _
  rw [goto_same]
  rfl

/-- A schedule that meets the hypothesis. -/
example : TriesAtMost .atomic true (2 ^ 31) initial [0, 0, 1, 1, 1, 0, 1] := by
  intro pre post s' e h
  have hlen : pre.length ≤ 7 := by
    have := congrArg List.length e
    simp at this
    omega
  have : ∀ (l : List Nat) (s s' : State), run .atomic true s l = .ok s' → s'.tries ≤ s.tries + l.length := by
    intro l
    induction l with
    | nil => intro s s' h; cases h; simp
    | cons t l ih =>
      intro s s' h
      simp only [run, Res.bind_eq_ok] at h
      obtain ⟨s1, h1, h2⟩ := h
      have h3 := ih s1 s' h2
      have : s1.tries ≤ s.tries + 1 := by
        unfold step at h1
        split at h1
        all_goals try (cases h1; simp [State.goto])
        split at h1 <;> cases h1
        simp
      simp only [List.length_cons]
      omega
  have := this pre initial s' h
  simp only [initial] at this
  omega

/-- Thread 0 holds the lock and thread 1 has tried `j` times. -/
theorem contended (ovf : Bool) : ∀ j : Nat, j < 2 ^ 32 → (ovf = true → j ≤ 2 ^ 31) →
    ∃ s, run .atomic ovf initial ([0, 0, 1] ++ List.replicate j 1) = .ok s ∧ s.val = 0 - BitVec.ofNat 32 j ∧
      s.pc 0 = .crit ∧ s.pc 1 = .dec 0
  | 0, _, _ => by
    cases ovf
    · exact ⟨_, rfl, by decide, by decide, by decide⟩
    · exact ⟨_, rfl, by decide, by decide, by decide⟩
  | j + 1, hj, ho => by
    obtain ⟨s, h1, h2, h3, h4⟩ := contended ovf j (by omega) (fun h => by have := ho h; omega)
    have hn : (0 - BitVec.ofNat 32 j).toNat = (2 ^ 32 - j) % 2 ^ 32 := by
      rw [BitVec.toNat_sub, BitVec.toNat_ofNat]
      simp only [BitVec.ofNat_eq_ofNat, BitVec.toNat_ofNat]
      omega
    have hz : ¬ (s.val - 1 = 0) := by
      rw [h2, sub_ofNat_succ]
      intro h
      have := congrArg BitVec.toNat h
      rw [BitVec.toNat_sub, BitVec.toNat_ofNat] at this
      simp only [BitVec.ofNat_eq_ofNat, BitVec.toNat_ofNat] at this
      omega
    have hm : ¬ (Kind.atomic = .atomic ∧ ovf = true ∧ s.val = BitVec.intMin 32) := by
      rintro ⟨_, ho', hv⟩
      have hj2 := ho ho'
      rw [h2] at hv
      have := congrArg BitVec.toNat hv
      rw [hn] at this
      simp only [BitVec.toNat_intMin] at this
      omega
    have hstep : step .atomic ovf s 1 = .ok { s.goto 1 (afterFail .atomic 0) with val := s.val - 1, tries := s.tries + 1 } := by
      unfold step
      rw [h4]
      show (ite (Kind.atomic = .atomic ∧ ovf = true ∧ s.val = BitVec.intMin 32) _ _) = _
      rw [if_neg hm, if_neg hz]
    refine ⟨{ s.goto 1 (afterFail .atomic 0) with val := s.val - 1, tries := s.tries + 1 }, ?_, ?_, ?_, ?_⟩
    · rw [List.replicate_succ', ← List.append_assoc, run_append, h1, Res.bind_ok]
      simp only [run, hstep, Res.bind_ok]
    · show s.val - 1 = _
      rw [h2, sub_ofNat_succ]
    · show (s.goto 1 (afterFail .atomic 0)).pc 0 = _
      rw [goto_other _ _ _ (by decide)]; exact h3
    · show (s.goto 1 (afterFail .atomic 0)).pc 1 = _
      rw [goto_same]; rfl

/-- **C49 fails, as C++ defines it.** A thread that waits for 2^31 tries while another holds the lock makes the next
try undefined (signed overflow in `--rwl`). -/
theorem atomic_spin_undefined : run .atomic true initial ([0, 0, 1] ++ List.replicate (2 ^ 31 + 1) 1) = .ub := by
  obtain ⟨s, h1, h2, h3, h4⟩ := contended true (2 ^ 31) (by omega) (fun _ => Nat.le_refl _)
  rw [List.replicate_succ', ← List.append_assoc, run_append, h1, Res.bind_ok]
  have : step .atomic true s 1 = .ub := by
    unfold step
    rw [h4]
    have : Kind.atomic = .atomic ∧ true = true ∧ s.val = BitVec.intMin 32 := ⟨rfl, rfl, by rw [h2]; decide⟩
    show (ite (Kind.atomic = .atomic ∧ true = true ∧ s.val = BitVec.intMin 32) _ _) = _
    rw [if_pos this]
  simp only [run, this, Res.bind_ub]

/-- **C49 fails on machines that wrap.** After 2^32 tries the word comes round to zero and the waiting thread enters
although thread 0 is still inside. -/
theorem atomic_spin_two_holders : ∃ s, run .atomic false initial ([0, 0, 1] ++ List.replicate (2 ^ 32) 1) = .ok s ∧
    s.pc 0 = .crit ∧ s.pc 1 = .crit := by
  obtain ⟨s, h1, h2, h3, h4⟩ := contended false (2 ^ 32 - 1) (by omega) (fun h => by cases h)
  have e : (2 : Nat) ^ 32 = (2 ^ 32 - 1) + 1 := by omega
  rw [e, List.replicate_succ', ← List.append_assoc, run_append, h1, Res.bind_ok]
  have hz : s.val - 1 = 0 := by rw [h2]; decide
  have hstep : step .atomic false s 1 = .ok { s.goto 1 .crit with val := s.val - 1, tries := s.tries + 1 } := by
    unfold step
    rw [h4]
    simp only [hz, if_true, afterZero]
    rfl
  refine ⟨{ s.goto 1 .crit with val := s.val - 1, tries := s.tries + 1 }, by simp only [run, hstep, Res.bind_ok], ?_, ?_⟩
  · show (s.goto 1 .crit).pc 0 = _
    rw [goto_other _ _ _ (by decide)]; exact h3
  · show (s.goto 1 .crit).pc 1 = _
    rw [goto_same]

end Verif.Spin
