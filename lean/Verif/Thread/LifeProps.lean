import Verif.Thread.Life

/-! # Threads: starting, joining, and signals (C110, C111) -/

namespace Verif.Thread.Life

/-! ## What is seen from outside, the latest first -/

/-- The thread started last and not joined since. -/
def current : List Obs → Option Nat
  | [] => none
  | .started i :: _ => some i
  | .joined _ :: _ => none
  | _ :: l => current l

/-- What `run` of thread `i` returned. -/
def result (i : Nat) : List Obs → Option Nat
  | [] => none
  | .ended j v :: l => if j = i then some v else result i l
  | _ :: l => result i l

def isStart : Obs → Bool
  | .started _ => true
  | _ => false

/-- A history of one object, in which the latest comes first: threads are numbered as they start, a thread starts only when none is current, `run` is called
once by each started thread and returns once, and `join` gives the result of the current thread. -/
def Good : List Obs → Prop
  | [] => True
  | .started i :: l => current l = none ∧ i = l.countP isStart ∧ Good l
  | .runs i :: l => .started i ∈ l ∧ .runs i ∉ l ∧ Good l
  | .ended i _ :: l => .runs i ∈ l ∧ result i l = none ∧ Good l
  | .joined v :: l => (∃ i, current l = some i ∧ result i l = some v) ∧ Good l

structure Inv (s : St) (h : List Obs) : Prop where
  good : Good h
  len : s.thr.length = h.countP isStart
  started : ∀ i, .started i ∈ h ↔ i < s.thr.length
  cur : current h = if s.live then some s.last else none
  last : s.live = true → s.last < s.thr.length
  fresh : ∀ i, s.thr.length ≤ i → .runs i ∉ h ∧ result i h = none
  created : ∀ i t, s.thr[i]? = some t → (t.phase = .created ↔ .runs i ∉ h)
  running : ∀ i t, s.thr[i]? = some t → (t.phase = .created ∨ t.phase = .running) → result i h = none
  done : ∀ i t v, s.thr[i]? = some t → t.phase = .done v → result i h = some v

theorem inv_init : Inv init [] := by
  constructor <;> simp [init, Good, current, result]

theorem setPhase_get (l : List Thr) (i : Nat) (p : Phase) (j : Nat) :
    (setPhase l i p)[j]? = if i = j then l[j]?.map (fun t => { t with phase := p }) else l[j]? := by
  unfold setPhase
  rw [List.getElem?_modify]
  cases l[j]? <;> by_cases h : i = j <;> simp [h]

theorem setPhase_length (l : List Thr) (i : Nat) (p : Phase) : (setPhase l i p).length = l.length := by simp [setPhase]

theorem get_snoc (l : List Thr) (x : Thr) (j : Nat) : (l ++ [x])[j]? = if j = l.length then some x else l[j]? := by
  grind

theorem inv_step {s : St} {h : List Obs} (hi : Inv s h) {m : Move} {s' : St} {o : List Obs} (hs : step s m = .ok (s', o)) :
    Inv s' (o.reverse ++ h) := by
  obtain ⟨i1, i2, i3, i4, i5, i9, i6, i7, i8⟩ := hi
  cases m with
  | start p =>
    simp only [step] at hs
    split at hs
    · simp at hs
    · cases hl : s.live <;> cases hp : p <;> simp [hl, hp, Res.require] at hs
      obtain ⟨rfl, rfl⟩ := hs
      have gs := get_snoc s.thr ⟨s.detached, .created⟩
      constructor <;> simp only [List.reverse_cons, List.reverse_nil, List.nil_append, List.cons_append, List.length_append, List.length_cons, List.length_nil, gs] <;>
        grind [Good, current, result, isStart]
  | join =>
    simp only [step] at hs
    split at hs
    · simp at hs
    · cases hl : s.live
      · simp [hl, Res.require] at hs
      · simp only [hl, Res.require_true, Res.bind_ok] at hs
        obtain ⟨r, hr, hs⟩ := Res.bind_eq_ok.1 hs
        have hr' : ∀ v, r = some v → ∃ t, s.thr[s.last]? = some t ∧ t.phase = .done v := by
          rintro v rfl
          unfold sysJoin at hr
          split at hr
          · simp at hr
          · next t ht =>
            refine ⟨t, ht, ?_⟩
            split at hr
            · simp at hr
            · split at hr <;> simp_all
        cases r with
        | none =>
          simp at hs
          obtain ⟨rfl, rfl⟩ := hs
          exact ⟨i1, i2, i3, i4, i5, i9, i6, i7, i8⟩
        | some v =>
          simp at hs
          obtain ⟨rfl, rfl⟩ := hs
          obtain ⟨t, ht, hv⟩ := hr' v rfl
          have gs := setPhase_get s.thr s.last .gone
          constructor <;> simp only [List.reverse_cons, List.reverse_nil, List.nil_append, List.cons_append, setPhase_length, gs] <;>
            grind [Good, current, result, isStart]
  | setDetached b =>
    simp only [step] at hs
    split at hs
    · simp at hs
    · simp at hs
      obtain ⟨rfl, rfl⟩ := hs
      exact ⟨i1, i2, i3, i4, i5, i9, i6, i7, i8⟩
  | destroy =>
    simp only [step] at hs
    split at hs
    · simp at hs
    · simp at hs
      obtain ⟨rfl, rfl⟩ := hs
      exact ⟨i1, i2, i3, i4, i5, i9, i6, i7, i8⟩
  | begins i =>
    simp only [step] at hs
    split at hs
    · next d ht =>
      split at hs
      · simp at hs
        obtain ⟨rfl, rfl⟩ := hs
        have gs := setPhase_get s.thr i .running
        constructor <;> simp only [List.reverse_cons, List.reverse_nil, List.nil_append, List.cons_append, setPhase_length, gs] <;>
          grind [Good, current, result, isStart]
      · simp at hs
    · simp at hs
      obtain ⟨rfl, rfl⟩ := hs
      exact ⟨i1, i2, i3, i4, i5, i9, i6, i7, i8⟩
  | returns i v =>
    simp only [step] at hs
    split at hs
    · next d ht =>
      simp at hs
      obtain ⟨rfl, rfl⟩ := hs
      have gs := setPhase_get s.thr i (.done v)
      constructor <;> simp only [List.reverse_cons, List.reverse_nil, List.nil_append, List.cons_append, setPhase_length, gs] <;>
        grind [Good, current, result, isStart]
    · simp at hs
      obtain ⟨rfl, rfl⟩ := hs
      exact ⟨i1, i2, i3, i4, i5, i9, i6, i7, i8⟩

theorem inv_run : ∀ (ms : List Move) {s : St} {h : List Obs}, Inv s h → ∀ {s' : St} {o : List Obs},
    run s ms = .ok (s', o) → Inv s' (o.reverse ++ h) := by
  intro ms
  induction ms with
  | nil =>
    intro s h hi s' o hr
    simp only [run, Res.ok.injEq, Prod.mk.injEq] at hr
    obtain ⟨rfl, rfl⟩ := hr
    simpa using hi
  | cons m ms ih =>
    intro s h hi s' o hr
    simp only [run] at hr
    obtain ⟨x, hx, hr⟩ := Res.bind_eq_ok.1 hr
    obtain ⟨y, hy, hr⟩ := Res.bind_eq_ok.1 hr
    simp only [Res.pure_eq, Res.ok.injEq, Prod.mk.injEq] at hr
    obtain ⟨rfl, rfl⟩ := hr
    have := ih (inv_step hi (s' := x.1) (o := x.2) hx) (s' := y.1) (o := y.2) hy
    simpa using this

/-- **C110.** Whatever the master does and however the threads are scheduled, as long as nothing undefined happens: every successful `start` makes one thread
call `run` at most once, `join` returns what `run` of the thread started last returned, and a thread is never joined twice nor started while another is not
joined. -/
theorem thread_history (ms : List Move) (s : St) (o : List Obs) (h : run init ms = .ok (s, o)) : Good o.reverse := by
  have := (inv_run ms inv_init h).good
  simpa using this

/-- Two rounds of starting and joining. -/
example : (run init [.start true, .join, .begins 0, .returns 0 7, .join, .start true, .begins 1, .returns 1 8, .join]).map (·.2) =
    .ok [.started 0, .runs 0, .ended 0 7, .joined 7, .started 1, .runs 1, .ended 1 8, .joined 8] := by decide

/-- **C110.** A second `start` without a `join` in between stops the program, whatever has become of the first thread; so does a `join` without a `start`. -/
theorem thread_misuse (ms : List Move) (s : St) (o : List Obs) (h : run init ms = .ok (s, o)) (ha : s.alive = true) :
    (current o.reverse ≠ none → ∀ p, step s (.start p) = .abort) ∧ (current o.reverse = none → step s .join = .abort) := by
  have hi := (inv_run ms inv_init h).cur
  simp only [List.append_nil] at hi
  constructor
  · intro hc p
    rw [hi] at hc
    have : s.live = true := by
      cases hl : s.live <;> simp [hl] at hc ⊢
    simp [step, ha, this, Res.require]
  · intro hc
    rw [hi] at hc
    have : s.live = false := by
      cases hl : s.live <;> simp [hl] at hc ⊢
    simp [step, ha, this, Res.require]

/-- **The comment at `PThread.hpp.in:52-54` says `start` may be called several times.** A detached thread cannot be joined (joining it is undefined), so its object can
never be started again, even after the thread has ended. -/
theorem thread_restart_false : (∃ s o, run init [.setDetached true, .start true, .begins 0, .returns 0 7] = .ok (s, o) ∧ s.alive = true ∧
    ∀ later s' o', run s later = .ok (s', o') → s'.alive = true → ∀ p, step s' (.start p) = .abort) ∧
    run init [.setDetached true, .start true, .begins 0, .returns 0 7, .join] = .ub := by
  refine ⟨⟨_, _, rfl, rfl, ?_⟩, by decide⟩
  have key : ∀ (later : List Move) (s : St), s.live = true → (∃ t, s.thr[s.last]? = some t ∧ t.detached = true) →
      ∀ s' o', run s later = .ok (s', o') → s'.live = true := by
    intro later
    induction later with
    | nil =>
      intro s h1 h2 s' o' hr
      simp only [run, Res.ok.injEq, Prod.mk.injEq] at hr
      rw [← hr.1]; exact h1
    | cons m ms ih =>
      intro s h1 h2 s' o' hr
      simp only [run] at hr
      obtain ⟨x, hx, hr⟩ := Res.bind_eq_ok.1 hr
      obtain ⟨y, hy, hr⟩ := Res.bind_eq_ok.1 hr
      simp only [Res.pure_eq, Res.ok.injEq, Prod.mk.injEq] at hr
      obtain ⟨rfl, rfl⟩ := hr
      obtain ⟨t, ht, hd⟩ := h2
      have hj : sysJoin s.thr s.last = .ub := by simp [sysJoin, ht, hd]
      obtain ⟨s1, o1⟩ := x
      have : s1.live = true ∧ ∃ t, s1.thr[s1.last]? = some t ∧ t.detached = true := by
        cases m with
        | start p =>
          simp only [step, h1] at hx
          split at hx <;> simp [Res.require] at hx
        | join =>
          simp only [step, h1, hj] at hx
          split at hx <;> simp [Res.require] at hx
        | setDetached b =>
          simp only [step] at hx
          split at hx
          · simp at hx
          · simp at hx
            obtain ⟨rfl, rfl⟩ := hx
            exact ⟨h1, t, ht, hd⟩
        | destroy =>
          simp only [step] at hx
          split at hx
          · simp at hx
          · simp at hx
            obtain ⟨rfl, rfl⟩ := hx
            exact ⟨h1, t, ht, hd⟩
        | begins i =>
          simp only [step] at hx
          split at hx
          · split at hx
            · simp at hx
              obtain ⟨rfl, rfl⟩ := hx
              refine ⟨h1, ?_⟩
              simp only [setPhase_get, ht]
              by_cases hh : i = s.last <;> simp [hh, hd]
            · simp at hx
          · simp at hx
            obtain ⟨rfl, rfl⟩ := hx
            exact ⟨h1, t, ht, hd⟩
        | returns i v =>
          simp only [step] at hx
          split at hx
          · simp at hx
            obtain ⟨rfl, rfl⟩ := hx
            refine ⟨h1, ?_⟩
            simp only [setPhase_get, ht]
            by_cases hh : i = s.last <;> simp [hh, hd]
          · simp at hx
            obtain ⟨rfl, rfl⟩ := hx
            exact ⟨h1, t, ht, hd⟩
      exact ih s1 this.1 this.2 y.1 y.2 hy
  intro later s' o' hr ha p
  have := key later _ rfl ⟨_, rfl, rfl⟩ s' o' hr
  simp [step, ha, this, Res.require]

/-- **The destructor does not wait.** An object that goes away before its thread has called `run` is used after its end. -/
theorem thread_destroy_ub : run init [.start true, .destroy, .begins 0] = .ub := by decide

/-- **C110.** An object all of whose threads have called `run` (for instance because they were joined) can go away: nothing that `PThread` does for them
afterwards uses it. What `run` itself does with the object is its own affair. -/
theorem thread_destroy (ms : List Move) (s : St) (o : List Obs) (h : run init ms = .ok (s, o)) (hc : ∀ i, .started i ∈ o → .runs i ∈ o)
    (later : List Move) (hl : ∀ m ∈ later, (∃ i, m = .begins i) ∨ ∃ i v, m = .returns i v) :
    ∃ s' o', run { s with alive := false } later = .ok (s', o') := by
  have hi := inv_run ms inv_init h
  have key : ∀ (later : List Move) (s : St), (∀ m ∈ later, (∃ i, m = .begins i) ∨ ∃ i v, m = .returns i v) →
      (∀ (i : Nat) (t : Thr), s.thr[i]? = some t → t.phase ≠ .created) → ∃ s' o', run s later = .ok (s', o') := by
    intro later
    induction later with
    | nil => intro s _ _; exact ⟨s, [], rfl⟩
    | cons m ms ih =>
      intro s hl hp
      have : ∃ s1 o1, step s m = .ok (s1, o1) ∧ ∀ (i : Nat) (t : Thr), s1.thr[i]? = some t → t.phase ≠ .created := by
        rcases hl m (by simp) with ⟨i, rfl⟩ | ⟨i, v, rfl⟩
        · simp only [step]
          split
          · next d hd => exact absurd rfl (hp i _ hd)
          · exact ⟨_, _, rfl, hp⟩
        · simp only [step]
          split
          · refine ⟨_, _, rfl, ?_⟩
            intro j t
            simp only [setPhase_get]
            have := hp j
            grind
          · exact ⟨_, _, rfl, hp⟩
      obtain ⟨s1, o1, h1, h2⟩ := this
      obtain ⟨s2, o2, h3⟩ := ih s1 (fun m hm => hl m (by simp [hm])) h2
      exact ⟨s2, o1 ++ o2, by simp [run, h1, h3]⟩
  apply key later _ hl
  intro i t ht
  have h1 := hi.created i t ht
  have h2 : .started i ∈ o := by
    have := (hi.started i).2 (by
      have := List.getElem?_eq_some_iff.1 ht
      exact this.1)
    simpa using this
  have h3 := hc i h2
  intro hcr
  rw [h1] at hcr
  simp at hcr
  exact hcr h3

/-- A detached thread that is running when its object goes away. -/
example : ∃ s o, run init [.setDetached true, .start true, .begins 0] = .ok (s, o) ∧ ∀ i, .started i ∈ o → .runs i ∈ o := by
  refine ⟨_, _, rfl, ?_⟩
  simp [init]

/-! ## Signals -/

/-- **C111, partial.** When the thread is created, it starts with every signal blocked that can be, and the caller has its own mask back. Missing for the full
statement: that the caller has its mask back in any case (`signals_false`). -/
theorem signals_partial (mask : Mask) (hm : allowed mask = mask) (live possible : Bool) (h : (startNoSignals mask live possible).1 = .ok ()) :
    (startNoSignals mask live possible).2.1 = mask ∧
      ∃ m, (startNoSignals mask live possible).2.2 = some m ∧ ∀ s, s ≠ 9 → s ≠ 19 → m s = true := by
  cases live <;> cases possible <;> simp [startNoSignals, Res.require] at h ⊢
  refine ⟨hm, ?_⟩
  intro s h1 h2
  simp [allowed, h1, h2]

/-- A mask with one signal blocked. -/
example : allowed (fun s => s == 2) = (fun s => s == 2) ∧ (startNoSignals (fun s => s == 2) false true).1 = .ok () := by
  refine ⟨?_, rfl⟩
  funext s
  by_cases h : s = 2
  · subst h; rfl
  · simp [allowed, h]

/-- **The full C111 is false.** When `start` fails and failed assertions are exceptions, the caller goes on with its signals blocked: no thread was made, and signal
15, which was not blocked, now is. -/
theorem signals_false : ∃ mask live possible, allowed mask = mask ∧ (startNoSignals mask live possible).1 = .abort ∧
    (startNoSignals mask live possible).2.2 = none ∧ mask 15 = false ∧ (startNoSignals mask live possible).2.1 15 = true :=
  ⟨fun _ => false, true, true, by funext s; rfl, rfl, rfl, rfl, rfl⟩

end Verif.Thread.Life
