import Verif.Assert.Threads

/-! # C204: assertions that fail in several threads -/

namespace Verif.Assert.Threads

/-- The hooks of a list that come before number `i`, called one after the other. -/
def calls (post : Bool) (i : Nat) : List Event := (List.range i).map (Event.called post)

/-- No hook before number `i` throws. -/
def Quiet (l : List Hook) (i : Nat) : Prop := ∀ j, j < i → l[j]? = some Hook.returns

/-- What may be seen of one failure. -/
inductive Orderly (h : Hooks) : List Event → Prop where
  /-- some of the hooks before the message, in order -/
  | before (i : Nat) : i ≤ h.pre.length → Quiet h.pre i → Orderly h (calls false i)
  /-- a hook before the message has thrown, and the thread has gone on or will do so -/
  | thrown (i : Nat) (es : List Event) : h.pre[i]? = some .throws → Quiet h.pre i → es = [] ∨ es = [.back] → Orderly h (calls false (i + 1) ++ es)
  /-- all hooks or, if another thread was failing, none; the message; then some of the hooks after it -/
  | past (p i : Nat) : (p = 0 ∨ p = h.pre.length) → Quiet h.pre p → i ≤ h.post.length → Quiet h.post i → Orderly h (calls false p ++ .message :: calls true i)
  | pastThrown (p i : Nat) (es : List Event) : (p = 0 ∨ p = h.pre.length) → Quiet h.pre p → h.post[i]? = some .throws → Quiet h.post i → es = [] ∨ es = [.back] →
      Orderly h (calls false p ++ .message :: (calls true (i + 1) ++ es))

/-- What was seen, by where the thread is. -/
def At (h : Hooks) : PC → List Event → Prop
  | .idle, es => es = [] ∨ (∃ l i, es = l ++ [.called false i, .back] ∧ h.pre[i]? = some .throws ∧ Orderly h es) ∨ ∃ l i, es = l ++ [.called true i, .back] ∧ h.post[i]? = some .throws ∧ Orderly h es
  | .start, es => es = []
  | .hook false i s, es => i ≤ h.pre.length ∧ Quiet h.pre i ∧ (s ≠ .check → i < h.pre.length) ∧
      match s with
      | .check | .set | .call => es = calls false i
      | .done t | .clear t => es = calls false (i + 1) ∧ h.pre[i]? = some (if t then .throws else .returns)
  | .hook true i s, es => ∃ p, (p = 0 ∨ p = h.pre.length) ∧ Quiet h.pre p ∧ i ≤ h.post.length ∧ Quiet h.post i ∧ (s ≠ .check → i < h.post.length) ∧
      match s with
      | .check | .set | .call => es = calls false p ++ .message :: calls true i
      | .done t | .clear t => es = calls false p ++ .message :: calls true (i + 1) ∧ h.post[i]? = some (if t then .throws else .returns)
  | .message, es => ∃ p, (p = 0 ∨ p = h.pre.length) ∧ Quiet h.pre p ∧ es = calls false p
  | .again, es => ∃ p, (p = 0 ∨ p = h.pre.length) ∧ Quiet h.pre p ∧ es = calls false p ++ [.message]
  | .die, es => ∃ p i, (p = 0 ∨ p = h.pre.length) ∧ Quiet h.pre p ∧ i ≤ h.post.length ∧ Quiet h.post i ∧ es = calls false p ++ .message :: calls true i

theorem calls_succ (post : Bool) (i : Nat) : calls post (i + 1) = calls post i ++ [.called post i] := by
  unfold calls
  rw [List.range_succ, List.map_append]
  rfl

theorem quiet_succ {l : List Hook} {i : Nat} (h : Quiet l i) (hi : l[i]? = some .returns) : Quiet l (i + 1) := by
  intro j hj
  by_cases e : j = i
  · rw [e]; exact hi
  · exact h j (by omega)

theorem hook_cases {l : List Hook} {i : Nat} (hi : i < l.length) : l[i]? = some (if decide (l[i]? = some Hook.throws) then .throws else .returns) := by
  cases h : l[i]? with
  | none => rw [List.getElem?_eq_none_iff] at h; omega
  | some x => cases x <;> simp

theorem at_orderly {h : Hooks} {pc : PC} {es : List Event} (ha : At h pc es) : Orderly h es := by
  have b0 : Orderly h [] := Orderly.before 0 (Nat.zero_le _) (fun j hj => absurd hj (Nat.not_lt_zero j))
  cases pc with
  | idle =>
    rcases ha with rfl | ⟨_, _, _, _, h1⟩ | ⟨_, _, _, _, h1⟩
    · exact b0
    · exact h1
    · exact h1
  | start => rw [show es = [] from ha]; exact b0
  | message =>
    obtain ⟨p, h1, h2, rfl⟩ := ha
    exact Orderly.before p (by omega) h2
  | again =>
    obtain ⟨p, h1, h2, rfl⟩ := ha
    exact Orderly.past p 0 h1 h2 (Nat.zero_le _) (fun j hj => absurd hj (Nat.not_lt_zero j))
  | die =>
    obtain ⟨p, i, h1, h2, h3, h4, rfl⟩ := ha
    exact Orderly.past p i h1 h2 h3 h4
  | hook post i s =>
    cases post with
    | false =>
      obtain ⟨h1, h2, h3, h4⟩ := ha
      have hd : ∀ t : Bool, s ≠ .check → (es = calls false (i + 1) ∧ h.pre[i]? = some (if t then Hook.throws else .returns)) → Orderly h es := by
        intro t hs ht
        obtain ⟨rfl, ht⟩ := ht
        cases t with
        | true => have := Orderly.thrown (h := h) i [] ht h2 (Or.inl rfl); rwa [List.append_nil] at this
        | false => exact Orderly.before (i + 1) (h3 hs) (quiet_succ h2 ht)
      cases s with
      | check => rw [show es = _ from h4]; exact Orderly.before i h1 h2
      | set => rw [show es = _ from h4]; exact Orderly.before i h1 h2
      | call => rw [show es = _ from h4]; exact Orderly.before i h1 h2
      | done t => exact hd t (by simp) h4
      | clear t => exact hd t (by simp) h4
    | true =>
      obtain ⟨p, p1, p2, h1, h2, h3, h4⟩ := ha
      have hd : ∀ t : Bool, s ≠ .check → (es = calls false p ++ .message :: calls true (i + 1) ∧ h.post[i]? = some (if t then Hook.throws else .returns)) → Orderly h es := by
        intro t hs ht
        obtain ⟨rfl, ht⟩ := ht
        cases t with
        | true => have := Orderly.pastThrown (h := h) p i [] p1 p2 ht h2 (Or.inl rfl); rwa [List.append_nil] at this
        | false => exact Orderly.past p (i + 1) p1 p2 (h3 hs) (quiet_succ h2 ht)
      cases s with
      | check => rw [show es = _ from h4]; exact Orderly.past p i p1 p2 h1 h2
      | set => rw [show es = _ from h4]; exact Orderly.past p i p1 p2 h1 h2
      | call => rw [show es = _ from h4]; exact Orderly.past p i p1 p2 h1 h2
      | done t => exact hd t (by simp) h4
      | clear t => exact hd t (by simp) h4

theorem step_at {h : Hooks} {flag f : Bool} {pc pc' : PC} {es es' : List Event} (ha : At h pc es) (hs : step h flag pc = (some f, pc', es')) : At h pc' (es ++ es') := by
  have q0 : ∀ l : List Hook, Quiet l 0 := fun l j hj => absurd hj (Nat.not_lt_zero j)
  cases pc with
  | idle => cases hs; rw [List.append_nil]; exact ha
  | start =>
    obtain rfl : es = [] := ha
    cases flag <;> (unfold step at hs; simp only [Prod.mk.injEq] at hs; obtain ⟨-, rfl, rfl⟩ := hs)
    · exact ⟨Nat.zero_le _, q0 _, fun hc => absurd rfl hc, rfl⟩
    · exact ⟨0, Or.inl rfl, q0 _, rfl⟩
  | message =>
    obtain ⟨p, h1, h2, rfl⟩ := ha
    cases hs
    exact ⟨p, h1, h2, rfl⟩
  | again =>
    obtain ⟨p, h1, h2, rfl⟩ := ha
    cases flag <;> (unfold step at hs; simp only [Prod.mk.injEq] at hs; obtain ⟨-, rfl, rfl⟩ := hs)
    · exact ⟨p, h1, h2, Nat.zero_le _, q0 _, fun hc => absurd rfl hc, by rw [List.append_nil]; rfl⟩
    · exact ⟨p, 0, h1, h2, Nat.zero_le _, q0 _, by rw [List.append_nil]; rfl⟩
  | die => cases hs
  | hook post i s =>
    cases post with
    | false =>
      obtain ⟨h1, h2, h3, h4⟩ := ha
      cases s with
      | check =>
        obtain rfl : es = _ := h4
        unfold step at hs
        simp only at hs
        split at hs
        · rename_i hi
          split at hs
          · cases hs
          · simp only [Prod.mk.injEq] at hs
            obtain ⟨-, rfl, rfl⟩ := hs
            rw [List.append_nil]
            exact ⟨h1, h2, fun _ => hi, rfl⟩
        · rename_i hi
          simp only [Prod.mk.injEq] at hs
          obtain ⟨-, rfl, rfl⟩ := hs
          have hi' : i = h.pre.length := by
            have : ¬ i < h.pre.length := hi
            omega
          rw [List.append_nil]
          exact ⟨i, Or.inr hi', h2, rfl⟩
      | set =>
        obtain rfl : es = _ := h4
        cases hs
        rw [List.append_nil]
        exact ⟨h1, h2, fun _ => h3 (by simp), rfl⟩
      | call =>
        obtain rfl : es = _ := h4
        cases hs
        have hi := h3 (by simp)
        exact ⟨h1, h2, fun _ => hi, (calls_succ _ _).symm, hook_cases hi⟩
      | done t =>
        unfold step at hs
        simp only at hs
        split at hs
        · simp only [Prod.mk.injEq] at hs
          obtain ⟨-, rfl, rfl⟩ := hs
          rw [List.append_nil]
          exact ⟨h1, h2, fun _ => h3 (by simp), h4⟩
        · cases hs
      | clear t =>
        obtain ⟨rfl, ht⟩ := h4
        cases t with
        | true =>
          cases hs
          refine Or.inr (Or.inl ⟨calls false i, i, ?_, ht, Orderly.thrown i [.back] ht h2 (Or.inr rfl)⟩)
          rw [calls_succ, List.append_assoc]; rfl
        | false =>
          cases hs
          show At h (PC.hook false (i + 1) Stage.check) (calls false (i + 1) ++ [])
          rw [List.append_nil]
          exact ⟨h3 (by simp), quiet_succ h2 ht, fun hc => absurd rfl hc, rfl⟩
    | true =>
      obtain ⟨p, p1, p2, h1, h2, h3, h4⟩ := ha
      cases s with
      | check =>
        obtain rfl : es = _ := h4
        unfold step at hs
        simp only at hs
        split at hs
        · rename_i hi
          split at hs
          · cases hs
          · simp only [Prod.mk.injEq] at hs
            obtain ⟨-, rfl, rfl⟩ := hs
            rw [List.append_nil]
            exact ⟨p, p1, p2, h1, h2, fun _ => hi, rfl⟩
        · simp only [Prod.mk.injEq] at hs
          obtain ⟨-, rfl, rfl⟩ := hs
          rw [List.append_nil]
          exact ⟨p, i, p1, p2, h1, h2, rfl⟩
      | set =>
        obtain rfl : es = _ := h4
        cases hs
        rw [List.append_nil]
        exact ⟨p, p1, p2, h1, h2, fun _ => h3 (by simp), rfl⟩
      | call =>
        obtain rfl : es = _ := h4
        cases hs
        have hi := h3 (by simp)
        refine ⟨p, p1, p2, h1, h2, fun _ => hi, ?_, hook_cases hi⟩
        rw [calls_succ]; simp
      | done t =>
        unfold step at hs
        simp only at hs
        split at hs
        · simp only [Prod.mk.injEq] at hs
          obtain ⟨-, rfl, rfl⟩ := hs
          rw [List.append_nil]
          exact ⟨p, p1, p2, h1, h2, fun _ => h3 (by simp), h4⟩
        · cases hs
      | clear t =>
        obtain ⟨rfl, ht⟩ := h4
        cases t with
        | true =>
          cases hs
          refine Or.inr (Or.inr ⟨calls false p ++ .message :: calls true i, i, ?_, ht, ?_⟩)
          · rw [calls_succ]; simp
          · have := Orderly.pastThrown (h := h) p i [.back] p1 p2 ht h2 (Or.inr rfl)
            simpa using this
        | false =>
          cases hs
          show At h (PC.hook true (i + 1) Stage.check) (calls false p ++ .message :: calls true (i + 1) ++ [])
          rw [List.append_nil]
          exact ⟨p, p1, p2, h3 (by simp), quiet_succ h2 ht, fun hc => absurd rfl hc, rfl⟩

theorem run_at (h : Hooks) (ms : List Move) (t : Nat) : At h ((run h ms).pc t) ((run h ms).seen t) := by
  unfold run
  have key : ∀ (ms : List Move) (w : World), (∀ t, At h (w.pc t) (w.seen t)) → ∀ t, At h ((ms.foldl (move h) w).pc t) ((ms.foldl (move h) w).seen t) := by
    intro ms
    induction ms with
    | nil => intro w hw; exact hw
    | cons m ms ih =>
      intro w hw
      apply ih
      intro u
      cases m with
      | fail t =>
        unfold move
        simp only
        split
        · simp only [upd]
          split
          · exact rfl
          · exact hw u
        · exact hw u
      | run t =>
        unfold move
        simp only
        split
        · exact hw u
        · split
          · rename_i f pc es hs
            simp only [upd]
            split
            · rename_i hu
              subst hu
              exact step_at (hw u) hs
            · exact hw u
          · exact hw u
  exact key ms World.start (fun _ => Or.inl rfl) t

/-- C204: whatever threads fail and in whichever order they run, the hooks of each failure are called in order and each at most once, those before the message all or, while another thread fails, not at all;
    the message comes before the hooks after it; and after a hook that throws no other is called. -/
theorem threads_orderly (h : Hooks) (ms : List Move) (t : Nat) : Orderly h ((run h ms).seen t) := at_orderly (run_at h ms t)

/-- C204: a thread whose assertion failed goes on only because one of its own hooks has thrown. -/
theorem threads_goes_on (h : Hooks) (ms : List Move) (t : Nat) (hi : (run h ms).pc t = .idle) (hs : (run h ms).seen t ≠ []) :
    ∃ l post i, (run h ms).seen t = l ++ [.called post i, .back] ∧ (h.of post)[i]? = some .throws := by
  have := run_at h ms t
  rw [hi] at this
  rcases this with h1 | ⟨l, i, h1, h2, -⟩ | ⟨l, i, h1, h2, -⟩
  · exact absurd h1 hs
  · exact ⟨l, false, i, h1, h2⟩
  · exact ⟨l, true, i, h1, h2⟩

/-- How many steps a thread may still take. -/
def rank (h : Hooks) : PC → Nat
  | .idle => 0
  | .start => 5 * h.pre.length + 5 * h.post.length + 6
  | .hook post i s => (if post then 2 else 5 * h.post.length + 5) + 5 * ((h.of post).length - i) - (match s with | .check => 0 | .set => 1 | .call => 2 | .done _ => 3 | .clear _ => 4)
  | .message => 5 * h.post.length + 4
  | .again => 5 * h.post.length + 3
  | .die => 1

theorem step_rank {h : Hooks} {flag f : Bool} {pc pc' : PC} {es es' : List Event} (ha : At h pc es) (hi : pc ≠ .idle) (hs : step h flag pc = (some f, pc', es')) : rank h pc' < rank h pc := by
  cases pc with
  | idle => exact absurd rfl hi
  | start =>
    cases flag <;> (unfold step at hs; simp only [Prod.mk.injEq] at hs; obtain ⟨-, rfl, rfl⟩ := hs) <;> simp [rank, Hooks.of] <;> omega
  | message => cases hs; simp [rank]
  | again =>
    cases flag <;> (unfold step at hs; simp only [Prod.mk.injEq] at hs; obtain ⟨-, rfl, rfl⟩ := hs) <;> simp [rank, Hooks.of]
    omega
  | die => cases hs
  | hook post i s =>
    have hlt : s ≠ .check → i < (h.of post).length := by
      cases post with
      | false => exact ha.2.2.1
      | true => obtain ⟨p, -, -, -, -, h3, -⟩ := ha; exact h3
    cases s with
    | check =>
      unfold step at hs
      simp only at hs
      split at hs
      · rename_i hi
        split at hs
        · cases hs
        · simp only [Prod.mk.injEq] at hs
          obtain ⟨-, rfl, rfl⟩ := hs
          simp only [rank]
          omega
      · simp only [Prod.mk.injEq] at hs
        obtain ⟨-, rfl, rfl⟩ := hs
        cases post <;> simp [rank, after] <;> omega
    | set => have := hlt (by simp); cases hs; simp only [rank]; omega
    | call => have := hlt (by simp); cases hs; simp only [rank]; omega
    | done t =>
      have := hlt (by simp)
      unfold step at hs
      simp only at hs
      split at hs
      · simp only [Prod.mk.injEq] at hs
        obtain ⟨-, rfl, rfl⟩ := hs
        simp only [rank]; omega
      · cases hs
    | clear t =>
      have := hlt (by simp)
      cases t with
      | true => cases hs; simp only [rank]; cases post <;> simp <;> omega
      | false => cases hs; show rank h (PC.hook post (i + 1) .check) < _; simp only [rank]; omega

/-- C204: a failed assertion comes to an end: after a number of steps of the thread that depends on the hooks only, whatever the others do, the program has ended or the thread has gone on. -/
theorem threads_end (h : Hooks) (ms : List Move) (t : Nat) (more : List Move) (hc : rank h .start ≤ (more.filter fun m => decide (m = .run t)).length) :
    ∃ k, (run h (ms ++ more.take k)).dead = true ∨ (run h (ms ++ more.take k)).pc t = .idle := by
  have key : ∀ (more ms : List Move), rank h ((run h ms).pc t) ≤ (more.filter fun m => decide (m = .run t)).length → ∃ k, (run h (ms ++ more.take k)).dead = true ∨ (run h (ms ++ more.take k)).pc t = .idle := by
    intro more
    induction more with
    | nil =>
      intro ms hr
      refine ⟨0, Or.inr ?_⟩
      rw [List.take_zero, List.append_nil]
      have ha := run_at h ms t
      simp only [List.filter_nil, List.length_nil] at hr
      cases hpc : (run h ms).pc t with
      | idle => rfl
      | hook post i s =>
        rw [hpc] at hr ha
        exfalso
        have hlt : s ≠ .check → i < (h.of post).length := by
          cases post with
          | false => exact ha.2.2.1
          | true => obtain ⟨p, -, -, -, -, h3, -⟩ := ha; exact h3
        cases s <;> cases post <;> simp [rank] at hr hlt <;> omega
      | _ => rw [hpc] at hr; simp [rank] at hr
    | cons m more ih =>
      intro ms hr
      by_cases hd : (run h ms).dead = true
      · exact ⟨0, Or.inl (by rw [List.take_zero, List.append_nil]; exact hd)⟩
      · by_cases hidle : (run h ms).pc t = .idle
        · exact ⟨0, Or.inr (by rw [List.take_zero, List.append_nil]; exact hidle)⟩
        · have hrun : run h (ms ++ [m]) = move h (run h ms) m := by unfold run; rw [List.foldl_append]; rfl
          by_cases hm : m = .run t
          · subst hm
            rw [List.filter_cons_of_pos (by simp), List.length_cons] at hr
            cases hs : step h (run h ms).flag ((run h ms).pc t) with
            | mk f rest =>
              obtain ⟨pc', es'⟩ := rest
              cases f with
              | none =>
                refine ⟨1, Or.inl ?_⟩
                show (run h (ms ++ [Move.run t])).dead = true
                rw [hrun]
                unfold move
                simp only
                rw [if_neg hd, hs]
              | some f =>
                have hpc : (run h (ms ++ [.run t])).pc t = pc' := by
                  rw [hrun]
                  unfold move
                  simp only
                  rw [if_neg hd, hs]
                  simp [upd]
                have hlt := step_rank (run_at h ms t) hidle hs
                obtain ⟨k, hk⟩ := ih (ms ++ [.run t]) (by rw [hpc]; omega)
                refine ⟨k + 1, ?_⟩
                rw [List.take_succ_cons]
                rw [List.append_assoc] at hk
                exact hk
          · rw [List.filter_cons_of_neg (by simpa using hm)] at hr
            have hpc : (run h (ms ++ [m])).pc t = (run h ms).pc t := by
              rw [hrun]
              cases m with
              | fail u =>
                unfold move
                simp only
                split
                · rename_i hu
                  simp only [upd]
                  split
                  · rename_i htu
                    rw [htu] at hidle
                    exact absurd hu.2 hidle
                  · rfl
                · rfl
              | run u =>
                have hut : t ≠ u := fun e => hm (by rw [e])
                unfold move
                simp only
                split
                · rfl
                · split
                  · simp [upd, hut]
                  · rfl
            obtain ⟨k, hk⟩ := ih (ms ++ [m]) (by rw [hpc]; exact hr)
            refine ⟨k + 1, ?_⟩
            rw [List.take_succ_cons]
            rw [List.append_assoc] at hk
            exact hk
  apply key more ms
  refine Nat.le_trans ?_ hc
  have ha := run_at h ms t
  cases hpc : (run h ms).pc t with
  | hook post i s =>
    rw [hpc] at ha
    cases post <;> cases s <;> simp [rank, Hooks.of] <;> omega
  | _ => simp [rank] <;> omega

/-- The hypotheses can be met: one thread fails and goes on. -/
example : (run ⟨[.returns, .throws], []⟩ (.fail 3 :: List.replicate 11 (.run 3))).pc 3 = .idle ∧ (run ⟨[.returns, .throws], []⟩ (.fail 3 :: List.replicate 11 (.run 3))).seen 3 = [.called false 0, .called false 1, .back] ∧
    (run ⟨[.returns, .throws], []⟩ (.fail 3 :: List.replicate 11 (.run 3))).dead = false := by decide

/-- C204, false of the code: with a hook that throws, which lets each thread go on when it fails alone, two threads that fail at once end the program: the second takes the hook of the first for a bad hook of its own. -/
theorem threads_throw_false : ∃ ms, (run ⟨[.throws], []⟩ ms).dead = true ∧ (run ⟨[.throws], []⟩ (ms.filter fun m => decide (m = .fail 0 ∨ m = .run 0))).seen 0 = [.called false 0, .back] ∧
    (run ⟨[.throws], []⟩ (ms.filter fun m => decide (m = .fail 1 ∨ m = .run 1))).dead = false :=
  ⟨[.fail 0, .run 0, .run 0, .run 0, .fail 1, .run 1, .run 1, .run 1, .run 1, .run 0, .run 0, .run 0], by decide⟩

/-- C204, false of the code: a failure may leave out the hooks before the message and call those after it. -/
theorem threads_skip_false : ∃ ms, (run ⟨[.returns], [.returns]⟩ ms).seen 1 = [.message, .called true 0] :=
  ⟨[.fail 0, .run 0, .run 0, .run 0, .fail 1, .run 1, .run 0, .run 0, .run 0, .run 1, .run 1, .run 1, .run 1, .run 1], by decide⟩

/-- C204, false of the code: the flag does not keep threads apart: both may be in a hook. -/
theorem threads_both_false : ∃ ms, (run ⟨[.returns], []⟩ ms).seen 0 = [.called false 0] ∧ (run ⟨[.returns], []⟩ ms).seen 1 = [.called false 0] ∧ (run ⟨[.returns], []⟩ ms).dead = false :=
  ⟨[.fail 0, .fail 1, .run 0, .run 1, .run 0, .run 1, .run 0, .run 1, .run 0, .run 1], by decide⟩

end Verif.Assert.Threads
