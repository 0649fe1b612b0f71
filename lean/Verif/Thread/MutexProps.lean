import Verif.Thread.Mutex

/-! # Mutexes: who holds it, and how often it was contended (C109) -/

namespace Verif.Thread.Mutex

/-! ## What is seen from outside -/

/-- The thread that holds the mutex, from what was seen. -/
def holder : List Obs → Option Nat
  | [] => none
  | .locked t :: _ => some t
  | .tried t true :: _ => some t
  | .unlocked _ :: _ => none
  | _ :: l => holder l

/-- Whether the last thing seen of `t` in `lock` is that it found the mutex taken. The latest comes first. -/
def waits (t : Nat) : List Obs → Bool
  | [] => false
  | .foundBusy u :: l => if u = t then true else waits t l
  | .locked u :: l => if u = t then false else waits t l
  | _ :: l => waits t l

/-- The number of calls to `lock` that found the mutex taken and have returned. The latest comes first. -/
def contended : List Obs → Nat
  | [] => 0
  | .locked t :: l => contended l + (if waits t l then 1 else 0)
  | _ :: l => contended l

/-- A history of a lock, in order, starting with the holder given: it is handed out only while nobody holds it, and given back only by its holder. -/
def Legal : Option Nat → List Obs → Prop
  | _, [] => True
  | who, .locked t :: l => who = none ∧ Legal (some t) l
  | who, .tried t true :: l => who = none ∧ Legal (some t) l
  | who, .unlocked t :: l => who = some t ∧ Legal none l
  | who, .tried _ false :: l => Legal who l
  | who, .foundBusy _ :: l => Legal who l

/-! ## Invariant -/

/-- Inside the mutex, or about to return from `lock` with it. -/
def PC.inside : PC → Bool
  | .got | .read _ | .holding | .retrying | .stuck => true
  | _ => false

structure Inv (e : Bool) (s : St) (h : List Obs) : Prop where
  mode : s.errorcheck = e
  owner : ∀ t, s.owner = some t ↔ (s.pc t).inside = true
  count : s.ncontention = contended h % 2 ^ 32
  waiting : ∀ t, (s.pc t = .waiting ∨ s.pc t = .got ∨ ∃ v, s.pc t = .read v) → waits t h = true
  other : ∀ t, (s.pc t = .idle ∨ s.pc t = .trying ∨ s.pc t = .holding ∨ s.pc t = .retrying) → waits t h = false
  read : ∀ t v, s.pc t = .read v → v = s.ncontention
  hold : ∀ t, (s.pc t = .holding ∨ s.pc t = .retrying ∨ s.pc t = .stuck) → holder h = some t
  nobody : (∀ t, s.pc t ≠ .holding ∧ s.pc t ≠ .retrying ∧ s.pc t ≠ .stuck) → holder h = none

theorem inv_init (e : Bool) : Inv e (init e) [] where
  mode := rfl
  owner := by simp [init, PC.inside]
  count := rfl
  waiting := by simp [init]
  other := by simp [waits]
  read := by simp [init]
  hold := by simp [init]
  nobody := by simp [holder]

theorem setPc_same (s : St) (t : Nat) (p : PC) : (setPc s t p).pc t = p := by simp [setPc]

theorem setPc_other (s : St) {t u : Nat} (p : PC) (h : u ≠ t) : (setPc s t p).pc u = s.pc u := by simp [setPc, h]

/-- A thread inside is the owner, so it is alone. -/
theorem Inv.alone {e : Bool} {s : St} {h : List Obs} (hi : Inv e s h) {t u : Nat} (ht : (s.pc t).inside = true) (hu : (s.pc u).inside = true) : u = t := by
  have h1 := (hi.owner t).2 ht
  have h2 := (hi.owner u).2 hu
  rw [h1] at h2
  exact (Option.some.inj h2).symm

theorem Inv.free {e : Bool} {s : St} {h : List Obs} (hi : Inv e s h) (hn : s.owner = none) (u : Nat) : (s.pc u).inside = false := by
  cases hx : (s.pc u).inside with
  | false => rfl
  | true => rw [← hi.owner u, hn] at hx; simp at hx

theorem inv_step {e : Bool} {s : St} {h : List Obs} (hi : Inv e s h) {t : Nat} {m : Move} {s' : St} {o : List Obs}
    (hs : step s t m = .ok (s', o)) : Inv e s' (o.reverse ++ h) := by
  have ht : ∀ p, s.pc t = p → (s.pc t).inside = p.inside := fun p hp => by rw [hp]
  have al := fun u hu1 hu2 => hi.alone (t := t) (u := u) hu1 hu2
  have fr := hi.free
  obtain ⟨i1, i2, i3, i4, i5, i6, i7, i8⟩ := hi
  unfold step at hs
  split at hs
  all_goals (try split at hs)
  all_goals (try simp only [Res.ok.injEq, Prod.mk.injEq, reduceCtorEq] at hs)
  all_goals (obtain ⟨rfl, rfl⟩ := hs)
  all_goals (constructor <;> (try simp only [setPc, List.reverse_cons, List.reverse_nil, List.nil_append, List.cons_append]) <;>
    grind [PC.inside, holder, waits, contended])

theorem inv_run {e : Bool} : ∀ (ms : List (Nat × Move)) {s : St} {h : List Obs}, Inv e s h → ∀ {s' : St} {o : List Obs},
    run s ms = .ok (s', o) → Inv e s' (o.reverse ++ h) := by
  intro ms
  induction ms with
  | nil =>
    intro s h hi s' o hr
    simp only [run, Res.ok.injEq, Prod.mk.injEq] at hr
    obtain ⟨rfl, rfl⟩ := hr
    simpa using hi
  | cons m ms ih =>
    intro s h hi s' o hr
    obtain ⟨t, m⟩ := m
    simp only [run] at hr
    obtain ⟨x, hx, hr⟩ := Res.bind_eq_ok.1 hr
    obtain ⟨y, hy, hr⟩ := Res.bind_eq_ok.1 hr
    simp only [Res.pure_eq, Res.ok.injEq, Prod.mk.injEq] at hr
    obtain ⟨rfl, rfl⟩ := hr
    have := ih (inv_step hi (s' := x.1) (o := x.2) hx) (s' := y.1) (o := y.2) hy
    simpa using this

/-- What is seen of one move is legal, and says who holds the mutex then. -/
theorem legal_step {e : Bool} {s : St} {h : List Obs} (hi : Inv e s h) {t : Nat} {m : Move} {s' : St} {o : List Obs}
    (hs : step s t m = .ok (s', o)) : ∀ l, Legal (holder (o.reverse ++ h)) l → Legal (holder h) (o ++ l) := by
  have al := fun u hu1 hu2 => hi.alone (t := t) (u := u) hu1 hu2
  have fr := hi.free
  obtain ⟨i1, i2, i3, i4, i5, i6, i7, i8⟩ := hi
  intro l hl
  unfold step at hs
  split at hs
  all_goals (try split at hs)
  all_goals (try simp only [Res.ok.injEq, Prod.mk.injEq, reduceCtorEq] at hs)
  all_goals (obtain ⟨rfl, rfl⟩ := hs)
  all_goals (simp only [List.reverse_cons, List.reverse_nil, List.nil_append, List.cons_append, holder, Legal] at hl ⊢)
  all_goals (try exact hl)
  all_goals (refine ⟨?_, hl⟩; grind [PC.inside])

theorem legal_run {e : Bool} : ∀ (ms : List (Nat × Move)) {s : St} {h : List Obs}, Inv e s h → ∀ {s' : St} {o : List Obs},
    run s ms = .ok (s', o) → Legal (holder h) o := by
  intro ms
  induction ms with
  | nil =>
    intro s h hi s' o hr
    simp only [run, Res.ok.injEq, Prod.mk.injEq] at hr
    obtain ⟨rfl, rfl⟩ := hr
    simp [Legal]
  | cons m ms ih =>
    intro s h hi s' o hr
    obtain ⟨t, m⟩ := m
    simp only [run] at hr
    obtain ⟨x, hx, hr⟩ := Res.bind_eq_ok.1 hr
    obtain ⟨y, hy, hr⟩ := Res.bind_eq_ok.1 hr
    simp only [Res.pure_eq, Res.ok.injEq, Prod.mk.injEq] at hr
    obtain ⟨rfl, rfl⟩ := hr
    exact legal_step hi (s' := x.1) (o := x.2) hx _ (ih (inv_step hi (s' := x.1) (o := x.2) hx) (s' := y.1) (o := y.2) hy)

/-- **C109.** With any number of threads and in every order of their steps, the contention count is, modulo `2^32`, the number of calls to `lock` that found
the mutex taken and have returned: no count is lost although the counter is not atomic. -/
theorem mutex_contention (errorcheck : Bool) (ms : List (Nat × Move)) (s : St) (o : List Obs) (h : run (init errorcheck) ms = .ok (s, o)) :
    s.ncontention = contended o.reverse % 2 ^ 32 := by
  have := (inv_run ms (inv_init errorcheck) h).count
  simpa using this

/-- **C109.** The mutex is handed out, by `lock` or `trylock`, only while nobody holds it, and given back only by its holder. -/
theorem mutex_exclusion (errorcheck : Bool) (ms : List (Nat × Move)) (s : St) (o : List Obs) (h : run (init errorcheck) ms = .ok (s, o)) :
    Legal none o := legal_run ms (inv_init errorcheck) h

/-- Three threads; two calls wait, and the first of the two to get the mutex has not returned when the second starts to wait. -/
example : (run (init false) [(0, .callLock), (0, .go), (1, .callLock), (1, .go), (0, .callUnlock), (1, .go), (2, .callLock), (2, .go), (1, .go), (1, .go),
    (2, .callTrylock), (1, .callUnlock), (2, .go), (2, .go), (2, .go)]).map (fun x => (x.1.ncontention, x.2)) =
    .ok (2, [.locked 0, .foundBusy 1, .unlocked 0, .foundBusy 2, .locked 1, .unlocked 1, .locked 2]) := by decide

/-- **C109.** A thread that locks a mutex it holds: an error-checking mutex stops the program. -/
theorem mutex_relock_checked (ms : List (Nat × Move)) (s : St) (o : List Obs) (h : run (init true) ms = .ok (s, o)) (t : Nat) (ht : s.pc t = .holding) :
    run s [(t, .callLock), (t, .go)] = .abort := by
  have hm := (inv_run ms (inv_init true) h).mode
  simp [run, step, ht, setPc, hm]

/-- Nothing can be seen to get or give back the mutex. -/
def Silent : Obs → Prop
  | .locked _ | .tried _ true | .unlocked _ => False
  | _ => True

theorem stuck_run {e : Bool} (t : Nat) : ∀ (ms : List (Nat × Move)) {s : St} {h : List Obs}, Inv e s h → s.pc t = .stuck → ∀ {s' : St} {o : List Obs},
    run s ms = .ok (s', o) → s'.pc t = .stuck ∧ ∀ x ∈ o, Silent x := by
  intro ms
  induction ms with
  | nil =>
    intro s h hi ht s' o hr
    simp only [run, Res.ok.injEq, Prod.mk.injEq] at hr
    obtain ⟨rfl, rfl⟩ := hr
    exact ⟨ht, by simp⟩
  | cons m ms ih =>
    intro s h hi ht s' o hr
    obtain ⟨u, m⟩ := m
    simp only [run] at hr
    obtain ⟨x, hx, hr⟩ := Res.bind_eq_ok.1 hr
    obtain ⟨y, hy, hr⟩ := Res.bind_eq_ok.1 hr
    simp only [Res.pure_eq, Res.ok.injEq, Prod.mk.injEq] at hr
    obtain ⟨rfl, rfl⟩ := hr
    obtain ⟨s1, o1⟩ := x
    have key : s1.pc t = .stuck ∧ ∀ x ∈ o1, Silent x := by
      have al := fun hu => hi.alone (t := t) (u := u) (by rw [ht]; rfl) hu
      have ow := (hi.owner t).2 (by rw [ht]; rfl)
      unfold step at hx
      split at hx
      all_goals (try split at hx)
      all_goals (try simp only [Res.ok.injEq, Prod.mk.injEq, reduceCtorEq] at hx)
      all_goals (obtain ⟨rfl, rfl⟩ := hx)
      all_goals grind [PC.inside, Silent, setPc]
    obtain ⟨k1, k2⟩ := ih (inv_step hi hx) key.1 (s' := y.1) (o := y.2) hy
    refine ⟨k1, ?_⟩
    intro z hz
    rcases List.mem_append.1 hz with hz | hz
    · exact key.2 z hz
    · exact k2 z hz

/-- **C109.** ... a plain one makes the thread wait for ever, and nobody gets the mutex again. -/
theorem mutex_relock_plain (ms : List (Nat × Move)) (s : St) (o : List Obs) (h : run (init false) ms = .ok (s, o)) (t : Nat) (ht : s.pc t = .holding)
    (later : List (Nat × Move)) (s' : St) (o' : List Obs) (hl : run s ((t, .callLock) :: (t, .go) :: later) = .ok (s', o')) :
    s'.pc t = .stuck ∧ ∀ x ∈ o', Silent x := by
  have hi := inv_run ms (inv_init false) h
  have hm := hi.mode
  have e1 : step s t .callLock = .ok (setPc s t .retrying, []) := by simp [step, ht]
  have e2 : step (setPc s t .retrying) t .go = .ok (setPc (setPc s t .retrying) t .stuck, [.foundBusy t]) := by
    simp [step, setPc, hm]
  simp only [run, e1, e2, Res.bind_ok] at hl
  obtain ⟨w, hw, hr⟩ := Res.bind_eq_ok.1 hl
  obtain ⟨y, hy, hw⟩ := Res.bind_eq_ok.1 hw
  simp only [Res.pure_eq, Res.ok.injEq, Prod.mk.injEq] at hr hw
  subst hw
  obtain ⟨rfl, rfl⟩ := hr
  obtain ⟨k1, k2⟩ := stuck_run t later (inv_step (inv_step hi e1) e2) (setPc_same _ _ _) (s' := y.1) (o := y.2) hy
  refine ⟨k1, ?_⟩
  intro x hx
  simp only [List.nil_append, List.cons_append, List.mem_cons] at hx
  rcases hx with rfl | hx
  · trivial
  · exact k2 x hx

/-- A thread that holds the mutex, reached with either kind. -/
example : ∀ e, ∃ s o, run (init e) [(4, .callLock), (4, .go)] = .ok (s, o) ∧ s.pc 4 = .holding := by
  intro e
  exact ⟨_, _, rfl, rfl⟩

/-- Giving back a mutex that nobody, or somebody else, holds: an error-checking mutex stops the program, a plain one is undefined. -/
theorem mutex_unlock_free (ms : List (Nat × Move)) (e : Bool) (s : St) (o : List Obs) (h : run (init e) ms = .ok (s, o)) (t : Nat) (ht : s.pc t = .idle) :
    run s [(t, .callUnlock)] = if e then .abort else .ub := by
  have hm := (inv_run ms (inv_init e) h).mode
  cases e <;> simp [run, step, ht, hm]

end Verif.Thread.Mutex
