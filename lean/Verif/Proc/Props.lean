import Verif.Proc.Flat

/-! # Managing processes (C120, C121) -/

namespace Verif.Proc

/-! ## Every exit is reported once -/

/-- **C120.** Whatever happens, every process is started, exits, is reaped with the status it exited with, and then its exit function is called with this status, once; for a process the manager did not start there is a warning.
`children` has the processes started and not reaped. -/
theorem process_life (code : Nat → List Act) (main : List Act) (ms : List Move) (p : Pid) :
    (life p (run code main ms).log = some .absent ∨ (∃ m f, life p (run code main ms).log = some (.live m f)) ∨ ∃ m f s, life p (run code main ms).log = some (.zombie m f s)) ∧
    ((get p (run code main ms).children).isSome ↔ Ours p (run code main ms).log) := by
  have h := inv_run code main ms
  refine ⟨?_, (ours_iff h p).symm⟩
  rw [h.lives p]
  unfold view
  split
  · exact .inr (.inl ⟨_, _, rfl⟩)
  · split
    · exact .inr (.inr ⟨_, _, _, rfl⟩)
    · exact .inl rfl

/-- **C120.** What `wait`, `waitAll` and `waitPid` return is what was reaped by the call itself, and they die for the documented reasons. -/
theorem reports_honest (code : Nat → List Act) (main : List Act) (ms : List Move) : Honest (run code main ms).log := (inv_run code main ms).honest

theorem Honest.suffix {l : List Event} : ∀ {pre : List Event}, Honest (pre ++ l) → Honest l := by
  intro pre
  induction pre with
  | nil => exact id
  | cons e pre ih =>
    intro h
    apply ih
    rw [List.cons_append] at h
    unfold Honest at h
    split at h <;> first | exact h.2 | exact h | simp_all

theorem life_suffix {p : Pid} {l : List Event} : ∀ {pre : List Event} {x : Life}, life p (pre ++ l) = some x → ∃ y, life p l = some y := by
  intro pre
  induction pre with
  | nil => intro x h; exact ⟨x, h⟩
  | cons e pre ih => intro x h; obtain ⟨y, hy, _⟩ := life_some_tail (l := pre ++ l) h; exact ih hy

theorem open_suffix {l : List Event} : ∀ {pre : List Event} {x : List Item}, open' (pre ++ l) = some x → ∃ y, open' l = some y := by
  intro pre
  induction pre with
  | nil => intro x h; exact ⟨x, h⟩
  | cons e pre ih => intro x h; obtain ⟨y, hy, _⟩ := open_some_tail (l := pre ++ l) h; exact ih hy

theorem Flat.suffix {l : List Event} : ∀ {pre : List Event}, Flat (pre ++ l) → Flat l := by
  intro pre
  induction pre with
  | nil => exact id
  | cons e pre ih => intro h; exact ih (Flat.tail (l := pre ++ l) h)

/-- **C121.** The status `waitPid` returns is the one the process was reaped with during the call, also when exit functions wait; provided its number is not given to a new process meanwhile. `seg` is what happens during the call. -/
theorem waitPid_status_partial (code : Nat → List Act) (main : List Act) (ms : List Move) (p : Pid) (s : Status) (newer seg older : List Event)
    (h : (run code main ms).log = newer ++ .gavePid p (some s) :: seg ++ .beganPid p :: older) (h1 : Event.beganPid p ∉ seg) (h2 : ∀ t, Event.gavePid p (some t) ∉ seg) (h3 : ∀ m f, Event.forked p m f ∉ seg) :
    Event.reaped p s ∈ seg ∧ ∀ t, Event.reaped p t ∈ seg → t = s := by
  have inv := inv_run code main ms
  have hh := inv.honest
  have hl := inv.lives p
  obtain ⟨it, ho, _⟩ := inv.calls
  rw [h, List.append_assoc, List.cons_append] at hh ho hl
  obtain ⟨x, hx⟩ := life_suffix (l := seg ++ .beganPid p :: older) (pre := newer ++ [.gavePid p (some s)]) (by simpa using hl)
  obtain ⟨st, hst⟩ := open_suffix (l := older) (pre := newer ++ .gavePid p (some s) :: seg ++ [.beganPid p]) (by simpa using ho)
  obtain ⟨⟨acc, st', hop, hf⟩, _⟩ := hh.suffix
  obtain ⟨A, acc', he, hA, _, hacc⟩ := pid_segment hst seg _ hop h1 h2
  have hA0 : A = [] := by
    cases A with
    | nil => rfl
    | cons i A =>
      simp only [List.cons_append, List.cons.injEq] at he
      exact absurd he.1.symm (hA i (by simp) acc)
  subst hA0
  simp only [List.nil_append, List.cons.injEq, Item.pid.injEq, true_and] at he
  have hmem : Event.reaped p s ∈ seg := by
    cases hfi : acc.find? (fun x => x.1 = p) with
    | none => rw [hfi] at hf; cases hf
    | some y =>
      rw [hfi] at hf
      simp only [Option.map_some, Option.some.injEq] at hf
      have hy := hacc y (by rw [← he.1]; exact List.mem_of_find?_eq_some hfi)
      have hp := List.find?_some hfi
      simp only [decide_eq_true_eq] at hp
      rw [hp, hf] at hy
      exact hy
  exact ⟨hmem, fun t ht => (reaped_once seg _ x hx h3).2 t s ht hmem⟩

/-- **C121.** If exit functions do not wait, `waitPid` never fails, and `waitAll` returns a status for every process the manager had when it was called. -/
theorem quiet_waits_partial (code : Nat → List Act) (hq : Quiet code) (main : List Act) (ms : List Move) :
    Event.died .vanished ∉ (run code main ms).log ∧
    ∀ (r : List (Pid × Status)) (newer seg older : List Event), (run code main ms).log = newer ++ .gaveAll r :: seg ++ .beganAll :: older → Event.beganAll ∉ seg → (∀ r', Event.gaveAll r' ∉ seg) →
      ∀ p, Ours p older → ∃ s, get p r = some s ∧ Event.reaped p s ∈ seg ∧ ((∀ m f, Event.forked p m f ∉ seg) → ∀ t, Event.reaped p t ∈ seg → t = s) := by
  have q := qinv_run hq main ms
  have inv := inv_run code main ms
  refine ⟨q.fine, ?_⟩
  intro r newer seg older h h1 h2 p hp
  have hh := inv.honest
  have hl := inv.lives p
  obtain ⟨it, ho, _⟩ := inv.calls
  have hfl := q.flat
  rw [h, List.append_assoc, List.cons_append] at hh ho hl hfl
  obtain ⟨x, hx⟩ := life_suffix (l := seg ++ .beganAll :: older) (pre := newer ++ [.gaveAll r]) (by simpa using hl)
  have hf1 : Flat (seg ++ .beganAll :: older) := Flat.suffix (pre := newer ++ [.gaveAll r]) (by simpa using hfl)
  have hf2 : Flat (.beganAll :: older) := hf1.suffix
  obtain ⟨⟨acc, st', hop, ht, hno⟩, _⟩ := hh.suffix
  have hp' : Ours p (.beganAll :: older) := (ours_silent (fun _ _ => rfl) p older).2 hp
  have hre : ∃ s, Event.reaped p s ∈ seg := by
    by_cases hne : ∃ s, Event.reaped p s ∈ seg
    · exact hne
    · exact absurd (ours_until_reaped seg _ x hx hp' (fun s hs => hne ⟨s, hs⟩)) (hno p)
  obtain ⟨s, hs⟩ := hre
  obtain ⟨acc', hcase⟩ := all_segment hf2.1 seg _ hf1 hop h1 h2
  have hacc : ∀ p s, Event.reaped p s ∈ seg ↔ (p, s) ∈ acc := by
    rcases hcase with ⟨h3, h4⟩ | ⟨t, ac, h3, _⟩
    · simp only [List.cons.injEq, Item.all.injEq] at h3
      rw [h3.1]; exact h4
    · simp at h3
  have hfind : ∃ s', get p r = some s' ∧ (p, s') ∈ acc := by
    rw [ht p]
    cases hfi : acc.find? (fun x => x.1 = p) with
    | none =>
      rw [List.find?_eq_none] at hfi
      have := hfi _ ((hacc p s).1 hs)
      simp at this
    | some y =>
      have hy := List.find?_some hfi
      simp only [decide_eq_true_eq] at hy
      refine ⟨y.2, rfl, ?_⟩
      rw [← hy]
      exact List.mem_of_find?_eq_some hfi
  obtain ⟨s', hs', hm⟩ := hfind
  exact ⟨s', hs', (hacc p s').2 hm, fun h3 t ht => (reaped_once seg _ x hx h3).2 t s' ht ((hacc p s').2 hm)⟩

/-- **C121.** If the program may signal its processes, `wait` does not die with an internal error. -/
theorem signalled_waits_partial (code : Nat → List Act) (main : List Act) (ms : List Move) (hc : ∀ c, Move.go c ∈ ms → ∀ p, c.signal p = true) :
    Event.died .internal ∉ (run code main ms).log := (sinv_run code main ms hc).fine

/-! ## Progress -/

/-- **C120.** A `wait` that runs while a zombie exists has reaped one after at most four steps, unless its time is up before, or it dies at its check for processes. -/
theorem wait_progress (code : Nat → List Act) (main : List Act) (ms : List Move) (t : Bool) (ph : Phase) (ex : List (Pid × Status)) (rest : List Frame) (c1 c2 c3 c4 : Choice)
    (hd : (run code main ms).dead = false) (hs : (run code main ms).stack = .wait t ph ex 0 :: rest) (hz : (run code main ms).zombies ≠ []) :
    ∃ cs : List Choice, cs <+: [c1, c2, c3, c4] ∧
      ((∃ p st, get p (run code main ms).zombies = some st ∧ ∃ e, (cs.foldl (go code) (run code main ms)).log = e ++ .reaped p st :: (run code main ms).log) ∨
       (t = true ∧ (cs.foldl (go code) (run code main ms)).log = .gaveWait ex :: (run code main ms).log) ∨
       (cs.foldl (go code) (run code main ms)).log = .died .noChildren :: (run code main ms).log) := by
  generalize run code main ms = s at *
  have hreap : ∀ (s' : State) (c : Choice) (ph' : Phase), s'.zombies = s.zombies → s'.log = s.log → s'.dead = false → s'.stack = .wait t ph' ex 0 :: rest → (ph' = .inner ∨ ph' = .again) →
      ∃ p st, get p s.zombies = some st ∧ ∃ e, (go code s' c).log = e ++ .reaped p st :: s.log := by
    intro s' c ph' h1 h2 h3 h4 h5
    cases hw : waitpid c s'.zombies with
    | none => rw [h1] at hw; exact absurd (waitpid_none hw) hz
    | some x =>
      obtain ⟨p, st⟩ := x
      refine ⟨p, st, by rw [← h1]; exact waitpid_some hw, ?_⟩
      have key : ∀ ph'', ∃ e, (handleExit code s' p st t ph'' ex 0 rest).log = e ++ .reaped p st :: s.log := by
        intro ph''
        unfold handleExit
        simp only []
        split
        · exact ⟨[.warned p st], by rw [h2]; rfl⟩
        · exact ⟨[], by rw [h2]; rfl⟩
        · exact ⟨[.called p st], by rw [h2]; rfl⟩
      unfold go
      rw [h3, h4]
      simp only [Bool.false_eq_true, if_false]
      unfold doWait
      rcases h5 with rfl | rfl
      · simp only [hw]; exact key _
      · simp only [hw]; exact key _
  have goWait : ∀ (s' : State) (c : Choice) (ph' : Phase), s'.dead = false → s'.stack = .wait t ph' ex 0 :: rest → go code s' c = doWait code s' c t ph' ex 0 rest := by
    intro s' c ph' h1 h2
    unfold go
    rw [h1, h2]
    rfl
  have top : ∀ (s' : State) (c c' : Choice), s'.zombies = s.zombies → s'.log = s.log → s'.dead = false → s'.stack = .wait t .top ex 0 :: rest →
      (go code s' c).log = .died .noChildren :: s.log ∨ ∃ p st, get p s.zombies = some st ∧ ∃ e, (go code (go code s' c) c').log = e ++ .reaped p st :: s.log := by
    intro s' c c' h1 h2 h3 h4
    rw [goWait s' c .top h3 h4]
    unfold doWait
    simp only [ne_eq, not_true_eq_false, if_false]
    split
    · left; simp [State.die, h2]
    · right; exact hreap _ c' .inner h1 h2 h3 rfl (.inl rfl)
  have last : ∀ (s' : State) (c c' c'' : Choice), s'.zombies = s.zombies → s'.log = s.log → s'.dead = false → s'.stack = .wait t .last ex 0 :: rest →
      (t = true ∧ (go code s' c).log = .gaveWait ex :: s.log) ∨ (go code (go code s' c) c').log = .died .noChildren :: s.log ∨
      ∃ p st, get p s.zombies = some st ∧ ∃ e, (go code (go code (go code s' c) c') c'').log = e ++ .reaped p st :: s.log := by
    intro s' c c' c'' h1 h2 h3 h4
    rw [goWait s' c .last h3 h4]
    unfold doWait
    simp only []
    split
    · next ht => left; exact ⟨by simp at ht; exact ht.1, by simp [returnWait, h2]⟩
    · right; exact top _ c' c'' h1 h2 h3 rfl
  cases ph with
  | inner => exact ⟨[c1], by simp, .inl (hreap s c1 .inner rfl rfl hd hs (.inl rfl))⟩
  | again => exact ⟨[c1], by simp, .inl (hreap s c1 .again rfl rfl hd hs (.inr rfl))⟩
  | top =>
    rcases top s c1 c2 rfl rfl hd hs with h | h
    · exact ⟨[c1], by simp, .inr (.inr h)⟩
    · exact ⟨[c1, c2], by simp, .inl h⟩
  | last =>
    rcases last s c1 c2 c3 rfl rfl hd hs with h | h | h
    · exact ⟨[c1], by simp, .inr (.inl h)⟩
    · exact ⟨[c1, c2], by simp, .inr (.inr h)⟩
    · exact ⟨[c1, c2, c3], by simp, .inl h⟩
  | after =>
    have h1 := goWait s c1 .after hd hs
    unfold doWait at h1
    simp only [ne_eq, not_true_eq_false, if_false] at h1
    by_cases hb : (s.noChild && !(s.children.any fun x => s.exists x.1 && c1.signal x.1)) = true
    · rw [if_pos hb] at h1
      refine ⟨[c1, c2], by simp, .inl ?_⟩
      simp only [List.foldl_cons, List.foldl_nil]
      rw [h1]
      exact hreap _ c2 .again rfl rfl hd rfl (.inr rfl)
    · rw [if_neg hb] at h1
      rcases last { s with stack := .wait t .last ex 0 :: rest } c2 c3 c4 rfl rfl hd rfl with h | h | h
      · exact ⟨[c1, c2], by simp, .inr (.inl (by simp only [List.foldl_cons, List.foldl_nil]; rw [h1]; exact h))⟩
      · exact ⟨[c1, c2, c3], by simp, .inr (.inr (by simp only [List.foldl_cons, List.foldl_nil]; rw [h1]; exact h))⟩
      · exact ⟨[c1, c2, c3, c4], by simp, .inl (by simp only [List.foldl_cons, List.foldl_nil]; rw [h1]; exact h)⟩

/-! ## Examples and counterexamples -/

/-- A step in which the system offers `p` and all processes can be signalled. -/
def at' (p : Pid) : Move := .go ⟨p, false, fun _ => true⟩

def noFns : Nat → List Act := fun _ => []

/-- Two processes, one with an exit function; `waitPid` for the second, `waitAll` for the rest. -/
example : (run noFns [.fork true (some 0), .fork true none, .waitPid 8, .waitAll]
      [at' 7, at' 8, at' 0, .exit 8 3, at' 0, at' 0, at' 8, at' 0, at' 0, at' 0, at' 0, at' 0, at' 0, at' 0, .exit 7 1, at' 0, at' 0, at' 0, at' 0, at' 0, at' 0, at' 0, at' 0]).log.reverse =
    [.forked 7 true true, .forked 8 true false, .beganPid 8, .exited 8 3, .beganWait false, .reaped 8 3, .gaveWait [(8, 3)], .gavePid 8 (some 3), .beganAll, .beganWait false, .exited 7 1, .reaped 7 1, .called 7 1,
      .gaveWait [(7, 1)], .gaveAll [(7, 1)]] := by
  decide +kernel

/-- **C121, false.** An exit function that waits: `waitPid` for a process that exited dies, although the process was the manager's, exited and was reaped with status 3. -/
theorem waitPid_nested_false : ∃ (code : Nat → List Act) (main : List Act) (ms : List Move), Event.died .vanished ∈ (run code main ms).log ∧ Event.reaped 8 3 ∈ (run code main ms).log ∧ Event.beganPid 8 ∈ (run code main ms).log ∧
    ∀ c, Move.go c ∈ ms → ∀ p, c.signal p = true := by
  refine ⟨fun _ => [.wait false], [.fork true (some 0), .fork true none, .waitPid 8], [at' 7, at' 8, at' 0, .exit 7 1, at' 0, at' 0, at' 0, at' 0, .exit 8 3, at' 0, at' 0, at' 0, at' 0, at' 0, at' 0, at' 0, at' 0, at' 0, at' 0], ?_, ?_, ?_, ?_⟩
  · decide +kernel
  · decide +kernel
  · decide +kernel
  · intro c hc p
    simp only [at', List.mem_cons, Move.go.injEq, List.not_mem_nil, or_false, reduceCtorEq, false_or] at hc
    rcases hc with rfl | rfl | rfl | rfl | rfl | rfl | rfl | rfl | rfl | rfl | rfl | rfl | rfl | rfl | rfl | rfl | rfl <;> rfl

/-- **C121, false.** A number used again while `wait` runs: the exit function of 7 starts a process that gets the same number and exits at once; the status 1 of the first is not in the value of any call, and `waitPid(7)` returns the other's. -/
theorem reused_pid_false : ∃ (code : Nat → List Act) (main : List Act) (ms : List Move), Quiet code ∧
    (run code main ms).log.reverse = [.forked 7 true true, .beganPid 7, .exited 7 1, .beganWait false, .reaped 7 1, .called 7 1, .forked 7 true false, .exited 7 2, .reaped 7 2, .gaveWait [(7, 2)], .gavePid 7 (some 2)] := by
  refine ⟨fun _ => [.fork true none], [.fork true (some 0), .waitPid 7], [at' 7, at' 0, .exit 7 1, at' 0, at' 0, at' 0, at' 7, .exit 7 2, at' 0, at' 0, at' 0, at' 0, at' 0, at' 0], ?_, ?_⟩
  · intro i a ha
    simp only [List.mem_cons, List.not_mem_nil, or_false] at ha
    exact ⟨true, none, ha⟩
  · decide +kernel

/-- **C121, false.** `$!` is left from an earlier call and the process may not be signalled (it runs as another user): `wait` dies while the process runs. -/
theorem stale_errno_false : ∃ (code : Nat → List Act) (main : List Act) (ms : List Move), Event.died .internal ∈ (run code main ms).log ∧ (run code main ms).running = [8] ∧ (get 8 (run code main ms).children).isSome ∧
    ∀ b, Move.errno b ∉ ms := by
  refine ⟨noFns, [.fork true none, .wait false, .fork true none, .wait false],
    [at' 7, at' 0, .exit 7 0, at' 0, at' 0, at' 0, at' 0, at' 0, at' 8, at' 0, at' 0, at' 0, .go ⟨0, false, fun _ => false⟩, .go ⟨0, false, fun _ => false⟩], ?_, ?_, ?_, ?_⟩
  · decide +kernel
  · decide +kernel
  · decide +kernel
  · simp [at']

/-- The hypotheses of `waitPid_status_partial` and `quiet_waits_partial` hold in the first example; those of `wait_progress` here. -/
example : (run noFns [.fork true none, .wait false] [at' 7, at' 0, at' 0, at' 0, .exit 7 3]).stack = [.wait false .after [] 0, .acts []] ∧
    (run noFns [.fork true none, .wait false] [at' 7, at' 0, at' 0, at' 0, .exit 7 3]).zombies = [(7, 3)] := by
  decide +kernel

end Verif.Proc
