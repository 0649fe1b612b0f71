import Verif.Serve.Spec

namespace Verif.Serve

theorem num_inj {a b : Nat} (h : num a = num b) : a = b := by
  have h1 := Nat.ofDigitChars_ten_toDigits (n := a)
  have h2 := Nat.ofDigitChars_ten_toDigits (n := b)
  unfold num at h
  rw [h] at h1
  exact h1.symm.trans h2

theorem num_length (n : Nat) : (num n).length ≤ (num (n + 1)).length := by
  unfold num
  have hp : 0 < (Nat.toDigits 10 (n + 1)).length := Nat.length_toDigits_pos
  rw [Nat.length_toDigits_le_iff (by omega) hp]
  have := (Nat.length_toDigits_le_iff (b := 10) (n := n + 1) (by omega) hp).1 (Nat.le_refl _)
  omega

theorem over_num (n : Nat) : over (num (n + 1)) (num n) = num (n + 1) := by
  unfold over
  rw [List.drop_eq_nil_of_le (num_length n), List.append_nil]

theorem put_same (f : Txt → Option Nat) (i : Txt) (v : Option Nat) : put f i v i = v := if_pos rfl

theorem put_num (f : Txt → Option Nat) {i j : Nat} (v : Option Nat) (h : j ≠ i) : put f (num i) v (num j) = f (num j) := if_neg fun e => h (num_inj e)

theorem tests_append (a b : List Ev) : tests (a ++ b) = tests a ++ tests b := by
  induction a with
  | nil => rfl
  | cons e a ih => cases e <;> simp [tests, ih]

theorem lastTested_hook (es : List Ev) : lastTested (es ++ [.hook]) = lastTested es := by unfold lastTested; rw [tests_append]; simp [tests]

theorem lastTested_again (es : List Ev) : lastTested (es ++ [.again]) = lastTested es := by unfold lastTested; rw [tests_append]; simp [tests]

theorem lastTested_test (es : List Ev) (v : Nat) (ok : Bool) (h : Txt) : lastTested (es ++ [.test v ok h]) = some v := by unfold lastTested; rw [tests_append]; simp [tests]

/-! ## What a step is -/

theorem step_rel {s s' : S} {m : Move} (h : step s m = some s') : s.dead = none ∧
    ((m = .recv ∧ s' = { s with recv := s.recv + 1, waiting := s.waiting + 1 }) ∨
    (m = .hookLock ∧ s.hook = .none ∧ s.waiting ≠ 0 ∧ s' = { s with waiting := s.waiting - 1, hook := .got }) ∨
    (m = .hookRead ∧ s.hook = .got ∧ s' = { s with hook := .read s.id }) ∨
    (m = .hookCopy ∧ ∃ id, s.hook = .read id ∧ s' = { s with hook := .copied, files := put s.files id (some s.recv) }) ∨
    (m = .hookKill ∧ s.hook = .copied ∧ s' = { s with hook := .none, updated := true, log := s.log ++ [.hook], dead := if s.pc = .blocked then some .interrupted else none }) ∨
    (m = .retry ∧ s.pc = .wait ∧ s.updated = false ∧ 0 < s.fails ∧ s.fails < 5 ∧ s' = { s with pc := .script }) ∨
    (m = .retryRead ∧ s.pc = .script ∧ s' = { s with pc := .scriptRead s.id }) ∨
    (m = .retryCopy ∧ ∃ id, s.pc = .scriptRead id ∧ s' = { s with pc := .scriptCopied, files := put s.files id (some s.recv) }) ∨
    (m = .retryKill ∧ s.pc = .scriptCopied ∧ s' = { s with pc := .sig, updated := true, log := s.log ++ [.again] }) ∨
    (m = .wake ∧ (s.pc = .wait ∨ s.pc = .sig) ∧ s.updated = true ∧ s' = { s with pc := .cleared, updated := false }) ∨
    (m = .lock ∧ s.pc = .cleared ∧ s.hook = .none ∧ s' = { s with pc := .bumped s.count, count := s.count + 1, id := over (num (s.count + 1)) s.id }) ∨
    (m = .lock ∧ s.pc = .cleared ∧ s.hook ≠ .none ∧ s' = { s with pc := .blocked }) ∨
    (m = .take ∧ ∃ k, s.pc = .bumped k ∧ s.files (num k) = none ∧ s' = { s with dead := some .missing }) ∨
    (m = .take ∧ ∃ k v, s.pc = .bumped k ∧ s.files (num k) = some v ∧ s' = { s with files := put s.files (num k) none, db := v, pc := .testing }) ∨
    (∃ ok heads, m = .finish ok heads ∧ s.pc = .testing ∧ heads = [] ∧ s' = { s with dead := some .noHeads }) ∨
    (∃ ok heads, m = .finish ok heads ∧ s.pc = .testing ∧ heads ≠ [] ∧ s' = { s with
      fails := if ok then 0 else (if s.last = heads.flatten then s.fails else 0) + 1, last := heads.flatten, pc := .wait, log := s.log ++ [.test s.db ok heads.flatten] })) := by
  obtain ⟨recv, waiting, hook, id, files, updated, pc, count, fails, last, db, dead, log⟩ := s
  cases dead with
  | some d => simp [step] at h
  | none =>
    refine ⟨rfl, ?_⟩
    cases m with
    | recv => simp [step] at h; simp [← h]
    | hookLock => cases hook <;> simp [step] at h; simp [h.1, ← h.2]
    | hookRead => cases hook <;> simp [step] at h; simp [← h]
    | hookCopy => cases hook <;> simp [step] at h; simp [← h]
    | hookKill => cases hook <;> simp [step] at h; simp [← h]
    | retry => cases pc <;> simp [step] at h; simp [h.1, ← h.2]
    | retryRead => cases pc <;> simp [step] at h; simp [← h]
    | retryCopy => cases pc <;> simp [step] at h; simp [← h]
    | retryKill => cases pc <;> simp [step] at h; simp [← h]
    | wake => cases pc <;> simp [step] at h <;> simp [h.1, ← h.2]
    | lock =>
      cases pc <;> simp [step] at h
      unfold lockStep at h
      by_cases hh : hook = .none
      · simp [hh] at h; simp [hh, ← h]
      · simp [hh] at h; simp [hh, ← h]
    | take =>
      cases pc <;> simp [step] at h
      rename_i k
      unfold take at h
      cases hf : files (num k) with
      | none => simp [hf] at h; simp [← h, hf]
      | some v => simp [hf] at h; simp [← h, hf]
    | finish ok heads =>
      cases pc <;> simp [step] at h
      unfold finish at h
      by_cases hh : heads = []
      · simp [hh] at h; simp [hh, ← h]
      · rw [if_neg (by simpa using hh)] at h
        iterate 15 apply Or.inr
        exact ⟨ok, heads, rfl, rfl, hh, h.symm⟩

/-! ## What always holds -/

/-- The numbers of files. -/
structure Inv1 (s : S) : Prop where
  id : s.id = num s.count
  hook : ∀ x, s.hook = .read x → x = num s.count
  script : ∀ x, s.pc = .scriptRead x → x = num s.count
  bumped : ∀ k, s.pc = .bumped k → k + 1 = s.count
  later : ∀ k, s.count < k → s.files (num k) = none

theorem inv1_start : Inv1 start := ⟨rfl, fun _ h => (by cases h), fun _ h => (by cases h), fun _ h => (by cases h), fun _ _ => rfl⟩

theorem inv1_step {s s' : S} {m : Move} (hI : Inv1 s) (h : step s m = some s') : Inv1 s' := by
  obtain ⟨i1, i2, i3, i4, i5⟩ := hI
  obtain ⟨-, h⟩ := step_rel h
  rcases h with ⟨-, rfl⟩ | ⟨-, h1, -, rfl⟩ | ⟨-, h1, rfl⟩ | ⟨-, x, h1, rfl⟩ | ⟨-, h1, rfl⟩ | ⟨-, h1, -, -, -, rfl⟩ | ⟨-, h1, rfl⟩ | ⟨-, x, h1, rfl⟩ | ⟨-, h1, rfl⟩ | ⟨-, h1, -, rfl⟩ |
    ⟨-, h1, h2, rfl⟩ | ⟨-, h1, h2, rfl⟩ | ⟨-, k, h1, h2, rfl⟩ | ⟨-, k, v, h1, h2, rfl⟩ | ⟨ok, hd, -, h1, h2, rfl⟩ | ⟨ok, hd, -, h1, h2, rfl⟩
  · exact ⟨i1, i2, i3, i4, i5⟩
  · exact ⟨i1, fun _ h => (by cases h), i3, i4, i5⟩
  · exact ⟨i1, fun x h => (by cases h; exact i1), i3, i4, i5⟩
  · refine ⟨i1, fun _ h => (by cases h), i3, i4, fun k hk => ?_⟩
    show put s.files x _ (num k) = none
    rw [i2 x h1, put_num _ _ (by have hk' : s.count < k := hk; omega)]
    exact i5 k hk
  · exact ⟨i1, fun _ h => (by cases h), i3, i4, i5⟩
  · exact ⟨i1, i2, fun _ h => (by cases h), fun _ h => (by cases h), i5⟩
  · exact ⟨i1, i2, fun x h => (by cases h; exact i1), fun _ h => (by cases h), i5⟩
  · refine ⟨i1, i2, fun _ h => (by cases h), fun _ h => (by cases h), fun k hk => ?_⟩
    show put s.files x _ (num k) = none
    rw [i3 x h1, put_num _ _ (by have hk' : s.count < k := hk; omega)]
    exact i5 k hk
  · exact ⟨i1, i2, fun _ h => (by cases h), fun _ h => (by cases h), i5⟩
  · exact ⟨i1, i2, fun _ h => (by cases h), fun _ h => (by cases h), i5⟩
  · refine ⟨?_, fun x h => ?_, fun _ h => (by cases h), fun k h => (by cases h; rfl), fun k hk => i5 k (by have hk' : s.count + 1 < k := hk; omega)⟩
    · show over (num (s.count + 1)) s.id = _
      rw [i1]
      exact over_num _
    · exact absurd (h2.symm.trans h) (by simp)
  · exact ⟨i1, i2, fun _ h => (by cases h), fun _ h => (by cases h), i5⟩
  · exact ⟨i1, i2, i3, i4, i5⟩
  · refine ⟨i1, i2, fun _ h => (by cases h), fun _ h => (by cases h), fun j hj => ?_⟩
    show put s.files _ _ (num j) = none
    rw [put_num _ _ (by have hk' : s.count < j := hj; have := i4 k h1; omega)]
    exact i5 j hj
  · exact ⟨i1, i2, i3, i4, i5⟩
  · exact ⟨i1, i2, fun _ h => (by cases h), fun _ h => (by cases h), i5⟩

/-- The order of the databases. -/
structure Inv2 (s : S) : Prop where
  files : ∀ x v, s.files x = some v → v ≤ s.recv
  db : s.db ≤ s.recv
  tested : ∀ t, lastTested s.log = some t → t ≤ s.db
  cur : ∀ v, s.files (num s.count) = some v → s.db ≤ v
  taken : ∀ k v, s.pc = .bumped k → s.files (num k) = some v → s.db ≤ v ∧ ∀ w, s.files (num s.count) = some w → v ≤ w

theorem inv2_start : Inv2 start := ⟨fun _ _ h => (by cases h), Nat.le_refl _, fun _ h => (by cases h), fun _ h => (by cases h), fun _ _ h => (by cases h)⟩

theorem put_some {f : Txt → Option Nat} {i x : Txt} {v w : Nat} (h : put f i (some v) x = some w) : (x = i ∧ w = v) ∨ (x ≠ i ∧ f x = some w) := by
  unfold put at h
  split at h
  · exact .inl ⟨‹_›, (Option.some.inj h).symm⟩
  · exact .inr ⟨‹_›, h⟩

theorem put_none {f : Txt → Option Nat} {i x : Txt} {w : Nat} (h : put f i none x = some w) : x ≠ i ∧ f x = some w := by
  unfold put at h
  split at h
  · cases h
  · exact ⟨‹_›, h⟩

theorem copy2 {s : S} (i1 : Inv1 s) (hI : Inv2 s) {x : Txt} (hx : x = num s.count) {s' : S} (e1 : s'.recv = s.recv) (e2 : s'.db = s.db) (e3 : s'.log = s.log) (e4 : s'.count = s.count)
    (e5 : s'.files = put s.files x (some s.recv)) (e6 : ∀ k, s'.pc = .bumped k → s.pc = .bumped k) : Inv2 s' := by
  subst hx
  refine ⟨fun y v h => ?_, by rw [e2, e1]; exact hI.db, by rw [e3, e2]; exact hI.tested, fun v h => ?_, fun k v hk h => ?_⟩
  · rw [e5] at h
    rw [e1]
    rcases put_some h with ⟨-, rfl⟩ | ⟨-, h⟩
    · exact Nat.le_refl _
    · exact hI.files _ _ h
  · rw [e5, e4, put_same] at h
    rw [e2, ← Option.some.inj h]
    exact hI.db
  · have hk' := e6 k hk
    have := i1.bumped k hk'
    rw [e5, put_num _ _ (by omega)] at h
    obtain ⟨a, b⟩ := hI.taken k v hk' h
    refine ⟨by rw [e2]; exact a, fun w hw => ?_⟩
    rw [e5, e4, put_same] at hw
    rw [← Option.some.inj hw]
    exact hI.files _ _ h

theorem inv2_step {s s' : S} {m : Move} (hI1 : Inv1 s) (hI : Inv2 s) (h : step s m = some s') : Inv2 s' := by
  obtain ⟨i1, i2, i3, i4, i5⟩ := hI
  obtain ⟨-, h⟩ := step_rel h
  rcases h with ⟨-, rfl⟩ | ⟨-, h1, -, rfl⟩ | ⟨-, h1, rfl⟩ | ⟨-, x, h1, rfl⟩ | ⟨-, h1, rfl⟩ | ⟨-, h1, -, -, -, rfl⟩ | ⟨-, h1, rfl⟩ | ⟨-, x, h1, rfl⟩ | ⟨-, h1, rfl⟩ | ⟨-, h1, -, rfl⟩ |
    ⟨-, h1, h2, rfl⟩ | ⟨-, h1, h2, rfl⟩ | ⟨-, k, h1, h2, rfl⟩ | ⟨-, k, v, h1, h2, rfl⟩ | ⟨ok, hd, -, h1, h2, rfl⟩ | ⟨ok, hd, -, h1, h2, rfl⟩
  · exact ⟨fun x v h => Nat.le_succ_of_le (i1 x v h), Nat.le_succ_of_le i2, i3, i4, i5⟩
  · exact ⟨i1, i2, i3, i4, i5⟩
  · exact ⟨i1, i2, i3, i4, i5⟩
  · exact copy2 hI1 ⟨i1, i2, i3, i4, i5⟩ (hI1.hook x h1) rfl rfl rfl rfl rfl fun _ h => h
  · exact ⟨i1, i2, (by rw [lastTested_hook]; exact i3), i4, i5⟩
  · exact ⟨i1, i2, i3, i4, fun _ _ h => (by cases h)⟩
  · exact ⟨i1, i2, i3, i4, fun _ _ h => (by cases h)⟩
  · exact copy2 hI1 ⟨i1, i2, i3, i4, i5⟩ (hI1.script x h1) rfl rfl rfl rfl rfl fun _ h => (by cases h)
  · exact ⟨i1, i2, (by rw [lastTested_again]; exact i3), i4, fun _ _ h => (by cases h)⟩
  · exact ⟨i1, i2, i3, i4, fun _ _ h => (by cases h)⟩
  · have hn := hI1.later (s.count + 1) (Nat.lt_succ_self _)
    refine ⟨i1, i2, i3, fun v h => ?_, fun k v hk h => ?_⟩
    · exact absurd (hn.symm.trans h) (by simp)
    · cases hk
      exact ⟨i4 v h, fun w hw => absurd (hn.symm.trans hw) (by simp)⟩
  · exact ⟨i1, i2, i3, i4, fun _ _ h => (by cases h)⟩
  · exact ⟨i1, i2, i3, i4, i5⟩
  · obtain ⟨a, b⟩ := i5 k v h1 h2
    refine ⟨fun x w h => i1 x w (put_none h).2, i1 _ _ h2, fun t ht => Nat.le_trans (i3 t ht) a, fun w hw => ?_, fun _ _ h => (by cases h)⟩
    exact b w (put_none hw).2
  · exact ⟨i1, i2, i3, i4, i5⟩
  · refine ⟨i1, i2, fun t ht => ?_, i4, fun _ _ h => (by cases h)⟩
    rw [lastTested_test] at ht
    exact Nat.le_of_eq (Option.some.inj ht).symm

/-- Where the newest database is. -/
def Held (s : S) : Prop :=
  s.recv = 0 ∨ (s.files (num s.count) = some s.recv ∧ (s.updated = true ∨ s.hook = .copied ∨ s.pc = .cleared ∨ s.pc = .blocked ∨ s.pc = .scriptCopied ∨ s.pc = .sig)) ∨
    (∃ k, s.pc = .bumped k ∧ s.files (num k) = some s.recv) ∨ (s.pc = .testing ∧ s.db = s.recv) ∨ lastTested s.log = some s.recv

/-- Nothing is forgotten. -/
def Inv3 (s : S) : Prop := s.waiting = 0 → s.hook = .none ∨ s.hook = .copied → Held s

theorem inv3_step {s s' : S} {m : Move} (hI1 : Inv1 s) (hI2 : Inv2 s) (hI : Inv3 s) (h : step s m = some s') : Inv3 s' := by
  obtain ⟨-, h⟩ := step_rel h
  intro hw hh
  rcases h with ⟨-, rfl⟩ | ⟨-, h1, -, rfl⟩ | ⟨-, h1, rfl⟩ | ⟨-, x, h1, rfl⟩ | ⟨-, h1, rfl⟩ | ⟨-, h1, h2, -, -, rfl⟩ | ⟨-, h1, rfl⟩ | ⟨-, x, h1, rfl⟩ | ⟨-, h1, rfl⟩ | ⟨-, h1, -, rfl⟩ |
    ⟨-, h1, h2, rfl⟩ | ⟨-, h1, h2, rfl⟩ | ⟨-, k, h1, h2, rfl⟩ | ⟨-, k, v, h1, h2, rfl⟩ | ⟨ok, hd, -, h1, h2, rfl⟩ | ⟨ok, hd, -, h1, h2, rfl⟩
  · exact absurd hw (Nat.succ_ne_zero _)
  · rcases hh with hh | hh <;> cases hh
  · rcases hh with hh | hh <;> cases hh
  · refine .inr (.inl ⟨?_, .inr (.inl rfl)⟩)
    show put s.files x _ (num s.count) = _
    rw [hI1.hook x h1, put_same]
  · rcases hI hw (.inr h1) with a | ⟨a, -⟩ | a | a | a
    · exact .inl a
    · exact .inr (.inl ⟨a, .inl rfl⟩)
    · exact .inr (.inr (.inl a))
    · exact .inr (.inr (.inr (.inl a)))
    · exact .inr (.inr (.inr (.inr (by rw [lastTested_hook]; exact a))))
  · rcases hI hw hh with a | ⟨a, b⟩ | ⟨k, a, -⟩ | ⟨a, -⟩ | a
    · exact .inl a
    · rcases b with b | b | b | b | b | b
      · exact absurd (h2.symm.trans b) (by simp)
      · exact .inr (.inl ⟨a, .inr (.inl b)⟩)
      all_goals exact absurd (h1.symm.trans b) (by simp)
    · exact absurd (h1.symm.trans a) (by simp)
    · exact absurd (h1.symm.trans a) (by simp)
    · exact .inr (.inr (.inr (.inr a)))
  · rcases hI hw hh with a | ⟨a, b⟩ | ⟨k, a, -⟩ | ⟨a, -⟩ | a
    · exact .inl a
    · rcases b with b | b | b | b | b | b
      · exact .inr (.inl ⟨a, .inl b⟩)
      · exact .inr (.inl ⟨a, .inr (.inl b)⟩)
      all_goals exact absurd (h1.symm.trans b) (by simp)
    · exact absurd (h1.symm.trans a) (by simp)
    · exact absurd (h1.symm.trans a) (by simp)
    · exact .inr (.inr (.inr (.inr a)))
  · refine .inr (.inl ⟨?_, .inr (.inr (.inr (.inr (.inl rfl))))⟩)
    show put s.files x _ (num s.count) = _
    rw [hI1.script x h1, put_same]
  · rcases hI hw hh with a | ⟨a, -⟩ | ⟨k, a, -⟩ | ⟨a, -⟩ | a
    · exact .inl a
    · exact .inr (.inl ⟨a, .inl rfl⟩)
    · exact absurd (h1.symm.trans a) (by simp)
    · exact absurd (h1.symm.trans a) (by simp)
    · exact .inr (.inr (.inr (.inr (by rw [lastTested_again]; exact a))))
  · rcases hI hw hh with a | ⟨a, -⟩ | ⟨k, a, -⟩ | ⟨a, -⟩ | a
    · exact .inl a
    · exact .inr (.inl ⟨a, .inr (.inr (.inl rfl))⟩)
    · rcases h1 with h1 | h1 <;> exact absurd (h1.symm.trans a) (by simp)
    · rcases h1 with h1 | h1 <;> exact absurd (h1.symm.trans a) (by simp)
    · exact .inr (.inr (.inr (.inr a)))
  · rcases hI hw hh with a | ⟨a, -⟩ | ⟨k, a, -⟩ | ⟨a, -⟩ | a
    · exact .inl a
    · exact .inr (.inr (.inl ⟨s.count, rfl, a⟩))
    · exact absurd (h1.symm.trans a) (by simp)
    · exact absurd (h1.symm.trans a) (by simp)
    · exact .inr (.inr (.inr (.inr a)))
  · rcases hI hw hh with a | ⟨a, -⟩ | ⟨k, a, -⟩ | ⟨a, -⟩ | a
    · exact .inl a
    · exact .inr (.inl ⟨a, .inr (.inr (.inr (.inl rfl)))⟩)
    · exact absurd (h1.symm.trans a) (by simp)
    · exact absurd (h1.symm.trans a) (by simp)
    · exact .inr (.inr (.inr (.inr a)))
  · exact hI hw hh
  · rcases hI hw hh with a | ⟨a, b⟩ | ⟨j, a, b⟩ | ⟨a, -⟩ | a
    · exact .inl a
    · have hk := hI1.bumped k h1
      rcases b with b | b | b | b | b | b
      · exact .inr (.inl ⟨by show put s.files (num k) none (num s.count) = _; rw [put_num _ _ (by omega)]; exact a, .inl b⟩)
      · exact .inr (.inl ⟨by show put s.files (num k) none (num s.count) = _; rw [put_num _ _ (by omega)]; exact a, .inr (.inl b)⟩)
      all_goals exact absurd (h1.symm.trans b) (by simp)
    · obtain rfl := Pc.bumped.inj (h1.symm.trans a)
      exact .inr (.inr (.inr (.inl ⟨rfl, Option.some.inj (h2.symm.trans b)⟩)))
    · exact absurd (h1.symm.trans a) (by simp)
    · exact .inr (.inr (.inr (.inr a)))
  · exact hI hw hh
  · rcases hI hw hh with a | ⟨a, b⟩ | ⟨k, a, -⟩ | ⟨-, a⟩ | a
    · exact .inl a
    · rcases b with b | b | b | b | b | b
      · exact .inr (.inl ⟨a, .inl b⟩)
      · exact .inr (.inl ⟨a, .inr (.inl b)⟩)
      all_goals exact absurd (h1.symm.trans b) (by simp)
    · exact absurd (h1.symm.trans a) (by simp)
    · exact .inr (.inr (.inr (.inr (by rw [lastTested_test, a]))))
    · refine .inr (.inr (.inr (.inr ?_)))
      rw [lastTested_test]
      have b := hI2.tested _ a
      have c := hI2.db
      exact congrArg some (Nat.le_antisymm c b)

/-- The state of the waiting. -/
structure Inv4 (s : S) : Prop where
  sig : s.pc = .sig → s.updated = true
  blocked : s.dead = none → s.pc = .blocked → s.hook ≠ .none

theorem inv4_step {s s' : S} {m : Move} (hI : Inv4 s) (h : step s m = some s') : Inv4 s' := by
  obtain ⟨i1, i2⟩ := hI
  obtain ⟨hd, h⟩ := step_rel h
  rcases h with ⟨-, rfl⟩ | ⟨-, h1, -, rfl⟩ | ⟨-, h1, rfl⟩ | ⟨-, x, h1, rfl⟩ | ⟨-, h1, rfl⟩ | ⟨-, h1, h2, -, -, rfl⟩ | ⟨-, h1, rfl⟩ | ⟨-, x, h1, rfl⟩ | ⟨-, h1, rfl⟩ | ⟨-, h1, -, rfl⟩ |
    ⟨-, h1, h2, rfl⟩ | ⟨-, h1, h2, rfl⟩ | ⟨-, k, h1, h2, rfl⟩ | ⟨-, k, v, h1, h2, rfl⟩ | ⟨ok, hd', -, h1, h2, rfl⟩ | ⟨ok, hd', -, h1, h2, rfl⟩
  · exact ⟨i1, i2⟩
  · exact ⟨i1, fun _ _ => by simp⟩
  · exact ⟨i1, fun _ _ => by simp⟩
  · exact ⟨i1, fun _ _ => by simp⟩
  · refine ⟨fun _ => rfl, fun h hb => ?_⟩
    have hb' : s.pc = .blocked := hb
    simp [hb'] at h
  · exact ⟨fun h => (by cases h), fun _ h => (by cases h)⟩
  · exact ⟨fun h => (by cases h), fun _ h => (by cases h)⟩
  · exact ⟨fun h => (by cases h), fun _ h => (by cases h)⟩
  · exact ⟨fun _ => rfl, fun _ h => (by cases h)⟩
  · exact ⟨fun h => (by cases h), fun _ h => (by cases h)⟩
  · exact ⟨fun h => (by cases h), fun _ h => (by cases h)⟩
  · exact ⟨fun h => (by cases h), fun _ _ => h2⟩
  · exact ⟨i1, fun h => (by cases h)⟩
  · exact ⟨fun h => (by cases h), fun _ h => (by cases h)⟩
  · exact ⟨i1, fun h => (by cases h)⟩
  · exact ⟨fun h => (by cases h), fun _ h => (by cases h)⟩

/-- All of it. -/
structure Inv (s : S) : Prop where
  a : Inv1 s
  b : Inv2 s
  c : Inv3 s
  d : Inv4 s

theorem inv_start : Inv start := ⟨inv1_start, inv2_start, fun _ _ => .inl rfl, ⟨fun h => (by cases h), fun _ h => (by cases h)⟩⟩

theorem inv_step {s s' : S} {m : Move} (hI : Inv s) (h : step s m = some s') : Inv s' := ⟨inv1_step hI.a h, inv2_step hI.a hI.b h, inv3_step hI.a hI.b hI.c h, inv4_step hI.d h⟩

/-- What every step keeps up holds after every run. -/
theorem run_ind {P : S → Prop} (hs : ∀ s s' m, P s → step s m = some s' → P s') : ∀ (ms : List Move) {s s' : S}, P s → run s ms = some s' → P s'
  | [], s, s', hP, h => by cases h; exact hP
  | m :: ms, s, s', hP, h => by
    simp only [run] at h
    cases hm : step s m with
    | none => simp [hm] at h
    | some s1 =>
      simp only [hm] at h
      exact run_ind hs ms (hs s s1 m hP hm) h

theorem run_inv {ms : List Move} {s : S} (h : run start ms = some s) : Inv s := run_ind (fun _ _ _ => inv_step) ms inv_start h

end Verif.Serve
