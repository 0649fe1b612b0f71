import Verif.Thread.Timed
import Mathlib.Data.List.Forall2

/-! # Locking with a deadline (C108) -/

namespace Verif.Thread

/-- A time in nanoseconds. -/
def Time.ns (t : Time) : Int := t.sec * 1000000000 + t.nsec

/-- A time as the system gives it. -/
def Time.Normal (t : Time) : Prop := 0 ≤ t.nsec ∧ t.nsec < 1000000000

theorem expired_iff {now abs : Time} (h : now.Normal) (h' : abs.Normal) : expired now abs = true ↔ abs.ns ≤ now.ns := by
  obtain ⟨h1, h2⟩ := h
  obtain ⟨h3, h4⟩ := h'
  simp only [expired, Time.ns, Bool.or_eq_true, Bool.and_eq_true, decide_eq_true_eq]
  omega

/-- A moment at which the mutex was busy and the deadline was ahead. -/
def Waits (abs : Time) (r : Round) : Prop := r.ret = ebusy ∧ r.now.ns < abs.ns

theorem timedlock_waits {abs : Time} (ha : abs.Normal) : ∀ (pre rest : List Round), (∀ r ∈ pre, r.now.Normal ∧ Waits abs r) →
    (timedlock abs (pre ++ rest)).1 = (timedlock abs rest).1 := by
  intro pre
  induction pre with
  | nil => intros; rfl
  | cons r pre ih =>
    intro rest h
    obtain ⟨hn, hb, hw⟩ := h r (by simp)
    have he : expired r.now abs = false := by
      cases hx : expired r.now abs with
      | false => rfl
      | true => rw [expired_iff hn ha] at hx; omega
    simp only [List.cons_append, timedlock, hb, he, if_true, Bool.false_eq_true, if_false]
    exact ih rest fun x hx => h x (by simp [hx])

/-- Where a call that has returned came to its answer. -/
theorem timedlock_some {abs : Time} (ha : abs.Normal) : ∀ {rs : List Round} {ret : Nat}, (∀ r ∈ rs, r.now.Normal) →
    (timedlock abs rs).1 = some ret → ∃ pre r post, rs = pre ++ r :: post ∧ (∀ x ∈ pre, Waits abs x) ∧
      (r.ret = ebusy ∧ abs.ns ≤ r.now.ns ∧ ret = etimedout ∨ r.ret ≠ ebusy ∧ ret = r.ret) := by
  intro rs
  induction rs with
  | nil => intro ret _ h; simp [timedlock] at h
  | cons r rs ih =>
    intro ret hn h
    simp only [timedlock] at h
    by_cases hb : r.ret = ebusy
    · rw [if_pos hb] at h
      by_cases he : expired r.now abs = true
      · rw [if_pos he] at h
        simp only [Option.some.injEq] at h
        exact ⟨[], r, rs, rfl, by simp, .inl ⟨hb, (expired_iff (hn r (by simp)) ha).1 he, h.symm⟩⟩
      · rw [if_neg he] at h
        rw [expired_iff (hn r (by simp)) ha] at he
        obtain ⟨pre, x, post, e1, e2, e3⟩ := ih (fun x hx => hn x (by simp [hx])) h
        refine ⟨r :: pre, x, post, by rw [e1]; rfl, ?_, e3⟩
        intro y hy
        rcases List.mem_cons.1 hy with rfl | hy
        · exact ⟨hb, by omega⟩
        · exact e2 y hy
    · rw [if_neg hb] at h
      simp only [Option.some.injEq] at h
      exact ⟨[], r, rs, rfl, by simp, .inr ⟨hb, h.symm⟩⟩

/-- **C108.** Whatever the mutex and the clock do: the call has answered "locked" exactly when some try took the mutex and every earlier try found it busy
before the deadline; it has answered "timed out" exactly when some try found it busy with the deadline reached, every earlier one busy before the deadline
(so the mutex is tried at least once, even with a deadline in the past); and any other answer of the system aborts. -/
theorem timed_lock (abs : Time) (ha : abs.Normal) (rs : List Round) (hn : ∀ r ∈ rs, r.now.Normal) (hsys : ∀ r ∈ rs, r.ret ≠ etimedout) :
    (timedLock abs rs = some (.ok true) ↔ ∃ pre r post, rs = pre ++ r :: post ∧ (∀ x ∈ pre, Waits abs x) ∧ r.ret = 0) ∧
    (timedLock abs rs = some (.ok false) ↔ ∃ pre r post, rs = pre ++ r :: post ∧ (∀ x ∈ pre, Waits abs x) ∧ r.ret = ebusy ∧ abs.ns ≤ r.now.ns) ∧
    (timedLock abs rs = some .abort ↔ ∃ pre r post, rs = pre ++ r :: post ∧ (∀ x ∈ pre, Waits abs x) ∧ r.ret ≠ 0 ∧ r.ret ≠ ebusy) ∧
    timedLock abs rs ≠ some .ub := by
  have fwd : ∀ ret, (timedlock abs rs).1 = some ret → _ := fun ret h => timedlock_some ha hn h
  have bwd : ∀ pre r post, rs = pre ++ r :: post → (∀ x ∈ pre, Waits abs x) → (timedlock abs rs).1 = (timedlock abs (r :: post)).1 := by
    intro pre r post e h
    rw [e]
    exact timedlock_waits ha pre _ fun x hx => ⟨hn x (by rw [e]; simp [hx]), h x hx⟩
  refine ⟨⟨?_, ?_⟩, ⟨?_, ?_⟩, ⟨?_, ?_⟩, ?_⟩
  · intro h
    unfold timedLock at h
    split at h
    · simp at h
    · next ret hr =>
      obtain ⟨pre, r, post, e1, e2, e3⟩ := fwd ret hr
      refine ⟨pre, r, post, e1, e2, ?_⟩
      by_cases h0 : ret = 0
      · rcases e3 with ⟨_, _, e⟩ | ⟨_, e⟩
        · rw [e] at h0; simp [etimedout] at h0
        · omega
      · rw [if_neg h0] at h
        split at h <;> simp at h
  · rintro ⟨pre, r, post, e1, e2, e3⟩
    unfold timedLock
    rw [bwd pre r post e1 e2]
    simp [timedlock, e3, ebusy]
  · intro h
    unfold timedLock at h
    split at h
    · simp at h
    · next ret hr =>
      obtain ⟨pre, r, post, e1, e2, e3⟩ := fwd ret hr
      refine ⟨pre, r, post, e1, e2, ?_⟩
      rcases e3 with ⟨a, b, _⟩ | ⟨_, e⟩
      · exact ⟨a, b⟩
      · exfalso
        have := hsys r (by rw [e1]; simp)
        rw [if_neg (c := ret = etimedout) (by rw [e]; exact this)] at h
        split at h <;> simp at h
  · rintro ⟨pre, r, post, e1, e2, e3, e4⟩
    have he : expired r.now abs = true := (expired_iff (hn r (by rw [e1]; simp)) ha).2 e4
    unfold timedLock
    rw [bwd pre r post e1 e2]
    simp [timedlock, e3, he, etimedout]
  · intro h
    unfold timedLock at h
    split at h
    · simp at h
    · next ret hr =>
      obtain ⟨pre, r, post, e1, e2, e3⟩ := fwd ret hr
      refine ⟨pre, r, post, e1, e2, ?_⟩
      rcases e3 with ⟨_, _, e⟩ | ⟨e0, e⟩
      · rw [if_neg (by rw [e]; simp [etimedout]), if_pos e] at h; simp at h
      · refine ⟨?_, e0⟩
        intro hz
        rw [if_pos (by rw [e, hz])] at h
        simp at h
  · rintro ⟨pre, r, post, e1, e2, e3, e4⟩
    unfold timedLock
    rw [bwd pre r post e1 e2]
    simp [timedlock, e3, e4, hsys r (by rw [e1]; simp)]
  · intro h
    unfold timedLock at h
    split at h
    · simp at h
    · split at h
      · simp at h
      · split at h <;> simp at h

/-- A call that waits twice and gets the mutex, and one that times out. -/
example : timedLock ⟨5, 0⟩ [⟨16, ⟨4, 995000000⟩⟩, ⟨16, ⟨4, 999000000⟩⟩, ⟨0, ⟨5, 0⟩⟩] = some (.ok true) ∧
    timedLock ⟨5, 0⟩ [⟨16, ⟨4, 995000000⟩⟩, ⟨16, ⟨5, 1⟩⟩] = some (.ok false) ∧ timedLock ⟨5, 0⟩ [⟨0, ⟨9, 0⟩⟩] = some (.ok true) := by decide

theorem sleep_bounds {abs : Time} (ha : abs.Normal) {now : Time} (hn : now.Normal) (h : now.ns < abs.ns) :
    0 ≤ sleepFor now abs ∧ sleepFor now abs ≤ 10000000 ∧ now.ns + sleepFor now abs ≤ abs.ns ∧
      (sleepFor now abs = 0 ↔ ∃ k : Int, abs.ns = now.ns + k * 1000000000) := by
  obtain ⟨h1, h2⟩ := ha
  obtain ⟨h3, h4⟩ := hn
  have key : 0 ≤ fraction now abs ∧ fraction now abs < 1000000000 ∧ (∃ k : Int, abs.ns = now.ns + fraction now abs + k * 1000000000 ∧ 0 ≤ k) := by
    unfold fraction
    unfold Time.ns at *
    split
    · exact ⟨by omega, by omega, abs.sec - now.sec - 1, by omega, by omega⟩
    · exact ⟨by omega, by omega, abs.sec - now.sec, by omega, by omega⟩
  obtain ⟨k1, k2, k, k3, k4⟩ := key
  unfold sleepFor
  split
  · next hs =>
    refine ⟨by omega, by omega, by omega, ⟨fun e => by omega, ?_⟩⟩
    rintro ⟨j, hj⟩
    omega
  · next hs =>
    refine ⟨by omega, by omega, by omega, ⟨fun e => ⟨k, by omega⟩, ?_⟩⟩
    rintro ⟨j, hj⟩
    omega

/-- What one sleep of length `s` after the round `r` has to be. -/
structure GoodSleep (abs : Time) (s : Int) (r : Round) : Prop where
  nonneg : 0 ≤ s
  short : s ≤ 10000000
  inTime : r.now.ns + s ≤ abs.ns
  zero : s = 0 ↔ ∃ k : Int, abs.ns = r.now.ns + k * 1000000000

/-- **C108.** A call sleeps between its tries and at no other time (so the mutex is tried again after every sleep), at most ten milliseconds at a time, and
never beyond the deadline: from the clock's reading each sleep ends at or before it. A sleep of length zero happens exactly when a whole number of seconds
is left. -/
theorem timed_sleeps (abs : Time) (ha : abs.Normal) : ∀ (rs : List Round), (∀ r ∈ rs, r.now.Normal) →
    ∃ pre post, rs = pre ++ post ∧ List.Forall₂ (GoodSleep abs) (timedlock abs rs).2 pre ∧ (post = [] ↔ (timedlock abs rs).1 = none) := by
  intro rs
  induction rs with
  | nil => intro _; exact ⟨[], [], rfl, .nil, by simp [timedlock]⟩
  | cons r rs ih =>
    intro hn
    simp only [timedlock]
    by_cases hb : r.ret = ebusy
    · rw [if_pos hb]
      by_cases he : expired r.now abs = true
      · rw [if_pos he]; exact ⟨[], r :: rs, rfl, .nil, by simp⟩
      · rw [if_neg he]
        rw [expired_iff (hn r (by simp)) ha] at he
        obtain ⟨pre, post, e1, e2, e3⟩ := ih fun x hx => hn x (by simp [hx])
        obtain ⟨b1, b2, b3, b4⟩ := sleep_bounds ha (hn r (by simp)) (by omega)
        exact ⟨r :: pre, post, by rw [e1]; rfl, .cons ⟨b1, b2, b3, b4⟩ e2, e3⟩
    · rw [if_neg hb]; exact ⟨[], r :: rs, rfl, .nil, by simp⟩

/-- A call with two sleeps. -/
example : (timedlock ⟨5, 0⟩ [⟨16, ⟨4, 980000000⟩⟩, ⟨16, ⟨4, 995000000⟩⟩, ⟨0, ⟨5, 0⟩⟩]).2 = [10000000, 5000000] := by decide

/-- A reading with a borrow, one with a whole second left. -/
example : sleepFor ⟨4, 995000000⟩ ⟨5, 0⟩ = 5000000 ∧ sleepFor ⟨3, 0⟩ ⟨5, 0⟩ = 0 ∧ sleepFor ⟨3, 0⟩ ⟨5, 70000000⟩ = 10000000 := by decide

/-- The first `n` rounds of an execution. -/
def firstRounds (f : Nat → Round) (n : Nat) : List Round := (List.range n).map f

theorem timedlock_none {abs : Time} (ha : abs.Normal) : ∀ {rs : List Round}, (∀ r ∈ rs, r.now.Normal) →
    (timedlock abs rs).1 = none → ∀ r ∈ rs, Waits abs r := by
  intro rs
  induction rs with
  | nil => simp
  | cons r rs ih =>
    intro hn h x hx
    simp only [timedlock] at h
    by_cases hb : r.ret = ebusy
    · rw [if_pos hb] at h
      by_cases he : expired r.now abs = true
      · rw [if_pos he] at h; simp at h
      · rw [if_neg he] at h
        rw [expired_iff (hn r (by simp)) ha] at he
        rcases List.mem_cons.1 hx with rfl | hx
        · exact ⟨hb, by omega⟩
        · exact ih (fun y hy => hn y (by simp [hy])) h x hx
    · rw [if_neg hb] at h; simp at h

/-- **C108.** A call ends: when the clock moves on by at least a nanosecond from try to try, it has answered after at most as many tries as there were
nanoseconds to the deadline, and one. -/
theorem timed_ends (abs : Time) (ha : abs.Normal) (f : Nat → Round) (hn : ∀ i, (f i).now.Normal)
    (hclock : ∀ i, (f i).now.ns + 1 ≤ (f (i + 1)).now.ns) :
    (timedlock abs (firstRounds f ((abs.ns - (f 0).now.ns).toNat + 1))).1 ≠ none := by
  intro h
  obtain ⟨n, hd⟩ : ∃ n, n = (abs.ns - (f 0).now.ns).toNat := ⟨_, rfl⟩
  rw [← hd] at h
  have hw := timedlock_none ha (rs := firstRounds f (n + 1)) (by
    intro r hr
    simp only [firstRounds, List.mem_map] at hr
    obtain ⟨i, _, rfl⟩ := hr
    exact hn i) h (f n) (by
      simp only [firstRounds, List.mem_map, List.mem_range]
      exact ⟨n, by omega, rfl⟩)
  have hm : ∀ i : Nat, (f 0).now.ns + i ≤ (f i).now.ns := by
    intro i
    induction i with
    | zero => simp
    | succ i ih => have := hclock i; push_cast; omega
  have := hm n
  have := hw.2
  omega

/-- A clock that moves on. -/
example : ∃ f : Nat → Round, (∀ i, (f i).now.Normal) ∧ (∀ i, (f i).now.ns + 1 ≤ (f (i + 1)).now.ns) ∧ f 0 = ⟨16, ⟨0, 0⟩⟩ :=
  ⟨fun i => ⟨16, ⟨i, 0⟩⟩, fun _ => ⟨by simp, by simp⟩, fun i => by simp only [Time.ns]; push_cast; omega, rfl⟩

/-- The replacement clock gives a normalised time of the microsecond that was read. -/
theorem clock_replacement (sec usec : Int) (h : 0 ≤ usec ∧ usec < 1000000) :
    (clockGettime sec usec).Normal ∧ (clockGettime sec usec).ns = (sec * 1000000 + usec) * 1000 := by
  simp only [Time.Normal, Time.ns, clockGettime]
  omega

example : clockGettime 7 999999 = ⟨7, 999999000⟩ := rfl

end Verif.Thread
