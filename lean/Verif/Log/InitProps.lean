import Verif.Log.InitSpec

/-! # C103: first use of `LintelLog` -/

namespace Verif.Log.Init
open Spec

structure Inv (order : List Micro) (s : State) : Prop where
  mutex : ∀ t, s.owner = some t ↔ s.pc t = .check2 ∨ s.pc t = .unlock ∨ ∃ o r, s.pc t = .make o r
  making : ∀ t o r, s.pc t = .make o r → o = 0 ∧ s.objs = 1 ∧ ∃ d, order = d ++ r ∧ (.construct ∈ d → s.built 0 = true) ∧ (.publish ∈ d ↔ s.inst = some 0)
  inst : ∀ o, s.inst = some o → o = 0 ∧ s.objs = 1 ∧ s.built 0 = true
  fresh : s.inst = none → s.objs = 0 ∨ ∃ t o r, s.pc t = .make o r
  through : ∀ t, s.pc t = .unlock ∨ s.pc t = .done → s.inst ≠ none

theorem goto_self (s : State) (t : Nat) (p : PC) : (s.goto t p).pc t = p := by simp [State.goto]

theorem goto_ne {s : State} {t u : Nat} (p : PC) (h : u ≠ t) : (s.goto t p).pc u = s.pc u := by simp [State.goto, h]

theorem split_unique {x : Micro} {a b c d : List Micro} (h : a ++ x :: b = c ++ x :: d) (ha : x ∉ a) (hc : x ∉ c) : a = c := by
  induction a generalizing c with
  | nil =>
    cases c with
    | nil => rfl
    | cons y c => simp at h; exact absurd (by simp [h.1]) hc
  | cons y a ih =>
    cases c with
    | nil => simp at h; exact absurd (by simp [h.1]) ha
    | cons z c =>
      simp only [List.cons_append, List.cons.injEq] at h
      rw [h.1, ih h.2 (fun h' => ha (by simp [h'])) (fun h' => hc (by simp [h']))]

theorem built_before {order d r : List Micro} (h : StoresInOrder order) (e : order = d ++ .publish :: r) : .construct ∈ d ∧ .publish ∉ d := by
  obtain ⟨⟨_, hc⟩, p, q, w, hw⟩ := h
  have h1 : .publish ∉ d := by
    intro hm
    have := List.count_pos_iff.2 hm
    rw [e] at hc
    simp at hc
    omega
  have h2 : .publish ∉ p ++ .construct :: q := by
    intro hm
    have := List.count_pos_iff.2 hm
    rw [hw] at hc
    simp at hc this
    omega
  have := split_unique (e.symm.trans hw) h1 h2
  rw [this]
  exact ⟨by simp, h2⟩

theorem inv_step {order : List Micro} (ho : StoresInOrder order) {s : State} (hi : Inv order s) (t : Nat) : Inv order (step order s t) := by
  have only : ∀ u v, (s.pc u = .check2 ∨ s.pc u = .unlock ∨ ∃ o r, s.pc u = .make o r) → (s.pc v = .check2 ∨ s.pc v = .unlock ∨ ∃ o r, s.pc v = .make o r) → u = v := by
    intro u v hu hv
    have := ((hi.mutex u).2 hu).symm.trans ((hi.mutex v).2 hv)
    injection this
  have idle : ∀ p : PC, (s.pc t = .check1 ∨ s.pc t = .lock ∨ s.pc t = .done) → (p = .lock ∨ (p = .done ∧ s.inst ≠ none)) → Inv order (s.goto t p) := by
    intro p hpc hp
    refine ⟨fun u => ?_, fun u o r hu => ?_, hi.inst, fun hn => ?_, fun u hu => ?_⟩
    · by_cases hut : u = t
      · subst hut
        rw [goto_self]
        have := hi.mutex u
        show s.owner = some u ↔ _
        rcases hpc with h | h | h <;> rcases hp with rfl | ⟨rfl, _⟩ <;> simp [h] at this ⊢ <;> exact this
      · rw [goto_ne _ hut]; exact hi.mutex u
    · by_cases hut : u = t
      · subst hut; rw [goto_self] at hu; rcases hp with rfl | ⟨rfl, _⟩ <;> cases hu
      · rw [goto_ne _ hut] at hu; exact hi.making u o r hu
    · rcases hi.fresh hn with h | ⟨u, o, r, hu⟩
      · exact Or.inl h
      · refine Or.inr ⟨u, o, r, ?_⟩
        rw [goto_ne _ (by rintro rfl; rcases hpc with h | h | h <;> rw [h] at hu <;> cases hu)]
        exact hu
    · by_cases hut : u = t
      · subst hut; rw [goto_self] at hu
        rcases hp with rfl | ⟨rfl, h⟩
        · rcases hu with h | h <;> cases h
        · exact h
      · rw [goto_ne _ hut] at hu; exact hi.through u hu
  unfold step
  cases hpc : s.pc t with
  | check1 =>
    simp only
    refine idle _ (Or.inl hpc) ?_
    split
    · exact Or.inl rfl
    · next h => exact Or.inr ⟨rfl, h⟩
  | done => exact hi
  | lock =>
    simp only
    split
    · next hfree =>
      have nobody : ∀ u, ¬(s.pc u = .check2 ∨ s.pc u = .unlock ∨ ∃ o r, s.pc u = .make o r) := by
        intro u hu
        have := (hi.mutex u).2 hu
        rw [hfree] at this; cases this
      refine ⟨fun u => ?_, fun u o r hu => ?_, hi.inst, fun hn => ?_, fun u hu => ?_⟩
      · show some t = some u ↔ (s.goto t .check2).pc u = _ ∨ (s.goto t .check2).pc u = _ ∨ ∃ o r, (s.goto t .check2).pc u = _
        by_cases hut : u = t
        · subst hut; rw [goto_self]; simp
        · rw [goto_ne _ hut]
          have := nobody u
          constructor
          · intro h; injection h with h; exact absurd h.symm hut
          · intro h; exact absurd h this
      · by_cases hut : u = t
        · subst hut; rw [show ({ s.goto u .check2 with owner := some u } : State).pc u = .check2 from goto_self s u _] at hu; cases hu
        · have hu' : s.pc u = .make o r := by rw [← goto_ne (s := s) .check2 hut]; exact hu
          exact absurd (Or.inr (Or.inr ⟨o, r, hu'⟩)) (nobody u)
      · rcases hi.fresh hn with h | ⟨u, o, r, hu⟩
        · exact Or.inl h
        · exact absurd (Or.inr (Or.inr ⟨o, r, hu⟩)) (nobody u)
      · by_cases hut : u = t
        · subst hut; rw [show ({ s.goto u .check2 with owner := some u } : State).pc u = .check2 from goto_self s u _] at hu
          rcases hu with h | h <;> cases h
        · rw [show ({ s.goto t .check2 with owner := some t } : State).pc u = s.pc u from goto_ne _ hut] at hu
          exact hi.through u hu
    · exact hi
  | check2 =>
    simp only
    have hown := (hi.mutex t).2 (Or.inl hpc)
    split
    · next hn =>
      have hobj : s.objs = 0 := by
        rcases hi.fresh hn with h | ⟨u, o, r, hu⟩
        · exact h
        · have := only t u (Or.inl hpc) (Or.inr (Or.inr ⟨o, r, hu⟩))
          subst this; rw [hpc] at hu; cases hu
      refine ⟨fun u => ?_, fun u o r hu => ?_, fun o ho' => ?_, fun _ => Or.inr ⟨t, s.objs, order, goto_self s t _⟩, fun u hu => ?_⟩
      · show s.owner = some u ↔ (s.goto t _).pc u = _ ∨ (s.goto t _).pc u = _ ∨ ∃ o r, (s.goto t _).pc u = _
        by_cases hut : u = t
        · subst hut; rw [goto_self]; simp [hown]
        · rw [goto_ne _ hut]; exact hi.mutex u
      · by_cases hut : u = t
        · subst hut
          have hu' : PC.make s.objs order = .make o r := by rw [← goto_self s u (.make s.objs order)]; exact hu
          cases hu'
          refine ⟨hobj, by show s.objs + 1 = 1; omega, [], rfl, by simp, ?_⟩
          show _ ↔ s.inst = some 0
          rw [hn]; simp
        · have hu' : s.pc u = .make o r := by rw [← goto_ne (s := s) (.make s.objs order) hut]; exact hu
          exact absurd (only u t (Or.inr (Or.inr ⟨o, r, hu'⟩)) (Or.inl hpc)) hut
      · have : s.inst = some o := ho'
        rw [hn] at this; cases this
      · by_cases hut : u = t
        · subst hut
          rw [show ({ s.goto u (.make s.objs order) with objs := s.objs + 1 } : State).pc u = .make s.objs order from goto_self s u _] at hu
          rcases hu with h | h <;> cases h
        · rw [show ({ s.goto t (.make s.objs order) with objs := s.objs + 1 } : State).pc u = s.pc u from goto_ne _ hut] at hu
          exact hi.through u hu
    · next hn =>
      refine ⟨fun u => ?_, fun u o r hu => ?_, hi.inst, fun h => absurd h hn, fun u hu => ?_⟩
      · show s.owner = some u ↔ _
        by_cases hut : u = t
        · subst hut; rw [goto_self]; simp [hown]
        · rw [goto_ne _ hut]; exact hi.mutex u
      · by_cases hut : u = t
        · subst hut; rw [goto_self] at hu; cases hu
        · rw [goto_ne _ hut] at hu; exact hi.making u o r hu
      · exact hn
  | make o rest =>
    have hown := (hi.mutex t).2 (Or.inr (Or.inr ⟨o, rest, hpc⟩))
    obtain ⟨h0, h1, d, hd, hb, hp⟩ := hi.making t o rest hpc
    subst h0
    cases rest with
    | nil =>
      simp only
      have hin : s.inst ≠ none := by
        have : .publish ∈ d := by
          obtain ⟨_, p, q, w, hw⟩ := ho
          rw [List.append_nil] at hd
          rw [← hd, hw]; simp
        rw [hp.1 this]; simp
      refine ⟨fun u => ?_, fun u o r hu => ?_, hi.inst, fun h => absurd h hin, fun u hu => hin⟩
      · show s.owner = some u ↔ _
        by_cases hut : u = t
        · subst hut; rw [goto_self]; simp [hown]
        · rw [goto_ne _ hut]; exact hi.mutex u
      · by_cases hut : u = t
        · subst hut; rw [goto_self] at hu; cases hu
        · rw [goto_ne _ hut] at hu; exact hi.making u o r hu
    | cons m rest =>
      simp only
      have hpcm : ∀ u, (micro s 0 m).pc u = s.pc u := by intro u; cases m <;> rfl
      have hownm : (micro s 0 m).owner = s.owner := by cases m <;> rfl
      have hobjm : (micro s 0 m).objs = 1 := by cases m <;> exact h1
      have hd' : order = (d ++ [m]) ++ rest := by rw [hd]; simp
      -- what the step does to the object and the pointer
      have hbm : .construct ∈ d ++ [m] → (micro s 0 m).built 0 = true := by
        intro h
        rw [List.mem_append, List.mem_singleton] at h
        rcases h with h | rfl
        · have := hb h
          cases m <;> simp [micro, this]
        · simp [micro]
      have hpm : .publish ∈ d ++ [m] ↔ (micro s 0 m).inst = some 0 := by
        rw [List.mem_append, List.mem_singleton, hp]
        cases m <;> simp [micro]
      have hinst : ∀ o, (micro s 0 m).inst = some o → o = 0 ∧ (micro s 0 m).objs = 1 ∧ (micro s 0 m).built 0 = true := by
        intro o h
        by_cases hmp : m = .publish
        · subst hmp
          obtain ⟨hcd, _⟩ := built_before ho hd
          have : some 0 = some o := h
          injection this with this
          exact ⟨this.symm, h1, hb hcd⟩
        · have hs : s.inst = some o := by cases m <;> first | exact h | exact absurd rfl hmp
          obtain ⟨a, _, c⟩ := hi.inst o hs
          refine ⟨a, hobjm, ?_⟩
          cases m <;> simp [micro, c]
      refine ⟨fun u => ?_, fun u o r hu => ?_, hinst, fun _ => Or.inr ⟨t, 0, rest, goto_self _ t _⟩, fun u hu => ?_⟩
      · show (micro s 0 m).owner = some u ↔ _
        rw [hownm]
        by_cases hut : u = t
        · subst hut; rw [goto_self]; simp [hown]
        · rw [goto_ne _ hut, hpcm]; exact hi.mutex u
      · by_cases hut : u = t
        · subst hut
          rw [goto_self] at hu
          cases hu
          exact ⟨rfl, hobjm, d ++ [m], hd', hbm, hpm⟩
        · rw [goto_ne _ hut, hpcm] at hu
          exact absurd (only u t (Or.inr (Or.inr ⟨o, r, hu⟩)) (Or.inr (Or.inr ⟨0, _, hpc⟩))) hut
      · by_cases hut : u = t
        · subst hut; rw [goto_self] at hu; rcases hu with h | h <;> cases h
        · rw [goto_ne _ hut, hpcm] at hu
          have := hi.through u hu
          intro hc
          cases m <;> first | exact this hc | cases hc
  | unlock =>
    simp only
    have hown := (hi.mutex t).2 (Or.inr (Or.inl hpc))
    have hin := hi.through t (Or.inl hpc)
    refine ⟨fun u => ?_, fun u o r hu => ?_, hi.inst, fun h => absurd h hin, fun u hu => hin⟩
    · show (none : Option Nat) = some u ↔ (s.goto t .done).pc u = _ ∨ (s.goto t .done).pc u = _ ∨ ∃ o r, (s.goto t .done).pc u = _
      by_cases hut : u = t
      · subst hut; rw [goto_self]; simp
      · rw [goto_ne _ hut]
        constructor
        · intro h; cases h
        · intro h; exact absurd (only u t h (Or.inr (Or.inl hpc))) hut
    · by_cases hut : u = t
      · subst hut; rw [show ({ s.goto u .done with owner := none } : State).pc u = .done from goto_self s u _] at hu; cases hu
      · have hu' : s.pc u = .make o r := by rw [← goto_ne (s := s) .done hut]; exact hu
        exact absurd (only u t (Or.inr (Or.inr ⟨o, r, hu'⟩)) (Or.inr (Or.inl hpc))) hut

theorem inv_run {order : List Micro} (ho : StoresInOrder order) (sched : List Nat) {s : State} (hi : Inv order s) : Inv order (run order s sched) := by
  induction sched generalizing s with
  | nil => exact hi
  | cons t ts ih => exact ih (inv_step ho hi t)

theorem inv_init (order : List Micro) : Inv order {} := by
  refine ⟨fun t => ?_, fun t o r h => ?_, fun o h => ?_, fun _ => Or.inl rfl, fun t h => ?_⟩
  · simp
  · cases h
  · cases h
  · rcases h with h | h <;> cases h

/-- C103. Where stores become visible in the order of the program, every thread that has come through finds one object, complete, and there is never a second
one: for every number of threads and every schedule. -/
theorem init_once_partial {order : List Micro} (ho : StoresInOrder order) (sched : List Nat) (t : Nat) (h : (run order {} sched).pc t = .done) :
    Ready (run order {} sched) := by
  have hi := inv_run ho sched (inv_init order)
  have := hi.through t (Or.inr h)
  cases hin : (run order {} sched).inst with
  | none => exact absurd hin this
  | some o =>
    obtain ⟨rfl, h1, h2⟩ := hi.inst o hin
    exact ⟨0, hin, h2, h1⟩

/-- C103. At no time are there two objects. -/
theorem init_at_most_one {order : List Micro} (ho : StoresInOrder order) (sched : List Nat) : (run order {} sched).objs ≤ 1 := by
  have hi := inv_run ho sched (inv_init order)
  cases hin : (run order {} sched).inst with
  | some o => have := (hi.inst o hin).2.1; omega
  | none =>
    rcases hi.fresh hin with h | ⟨t, o, r, h⟩
    · omega
    · have := (hi.making t o r h).2.1; omega

theorem written_in_order : StoresInOrder written := ⟨by decide, [], [.lockTmp, .unlockTmp], [], rfl⟩

/-- C103 for the order in which the steps are written. -/
theorem init_written_partial (sched : List Nat) (t : Nat) (h : (run written {} sched).pc t = .done) : Ready (run written {} sched) ∧ (run written {} sched).objs ≤ 1 :=
  ⟨init_once_partial written_in_order sched t h, init_at_most_one written_in_order sched⟩

-- two threads: both find no object, one waits for the other
example : (run written {} [0, 1, 0, 1, 0, 0, 1, 0, 0, 0, 0, 0, 1, 1, 1]).pc 1 = .done ∧ (run written {} [0, 1, 0, 1, 0, 0, 1, 0, 0, 0, 0, 0, 1, 1, 1]).objs = 1 := by decide

/-- Steps a thread still has to make. -/
def todo (order : List Micro) : PC → Nat
  | .check1 => order.length + 5
  | .lock => order.length + 4
  | .check2 => order.length + 3
  | .make _ r => r.length + 2
  | .unlock => 1
  | .done => 0

/-- C103. Nobody waits for ever: while any thread has not come through, some thread that has not can take a step that brings it nearer, and no step of a thread takes it
further away. -/
theorem init_progress {order : List Micro} (ho : StoresInOrder order) (sched : List Nat) {t : Nat} (h : (run order {} sched).pc t ≠ .done) :
    ∃ u, todo order ((step order (run order {} sched) u).pc u) < todo order ((run order {} sched).pc u) := by
  have hi := inv_run ho sched (inv_init order)
  generalize run order {} sched = s at h hi
  have moves : ∀ u, s.pc u ≠ .done → (s.pc u = .lock → s.owner = none) → todo order ((step order s u).pc u) < todo order (s.pc u) := by
    intro u hu hl
    unfold step
    cases hpc : s.pc u with
    | check1 => simp only [goto_self]; split <;> simp [todo]
    | lock => simp only [hl hpc, if_true]; rw [show ({ s.goto u .check2 with owner := some u } : State).pc u = .check2 from goto_self s u _]; simp [todo]
    | check2 =>
      simp only
      split
      · rw [show ({ s.goto u (.make s.objs order) with objs := s.objs + 1 } : State).pc u = .make s.objs order from goto_self s u _]; simp [todo]
      · rw [goto_self]; simp [todo]
    | make o r =>
      cases r with
      | nil => simp only [goto_self]; simp [todo]
      | cons m r => simp only [goto_self]; simp [todo]
    | unlock => simp only; rw [show ({ s.goto u .done with owner := none } : State).pc u = .done from goto_self s u _]; simp [todo]
    | done => exact absurd hpc hu
  cases hown : s.owner with
  | none => exact ⟨t, moves t h (fun _ => hown)⟩
  | some u =>
    refine ⟨u, moves u ?_ ?_⟩
    · rcases (hi.mutex u).1 hown with h | h | ⟨_, _, h⟩ <;> rw [h] <;> simp
    · intro hl
      rcases (hi.mutex u).1 hown with h | h | ⟨_, _, h⟩ <;> rw [h] at hl <;> cases hl

theorem init_never_back (order : List Micro) (s : State) (t u : Nat) : todo order ((step order s t).pc u) ≤ todo order (s.pc u) := by
  by_cases hut : u = t
  · subst hut
    unfold step
    cases hpc : s.pc u with
    | check1 => simp only [goto_self]; split <;> simp [todo]
    | lock =>
      simp only
      split
      · rw [show ({ s.goto u .check2 with owner := some u } : State).pc u = .check2 from goto_self s u _]; simp [todo]
      · rw [hpc]; exact Nat.le_refl _
    | check2 =>
      simp only
      split
      · rw [show ({ s.goto u (.make s.objs order) with objs := s.objs + 1 } : State).pc u = .make s.objs order from goto_self s u _]; simp [todo]
      · rw [goto_self]; simp [todo]
    | make o r =>
      cases r with
      | nil => simp only [goto_self]; simp [todo]
      | cons m r => simp only [goto_self]; simp [todo]
    | unlock => simp only; rw [show ({ s.goto u .done with owner := none } : State).pc u = .done from goto_self s u _]; simp [todo]
    | done => simp only; rw [hpc]; exact Nat.le_refl _
  · have : (step order s t).pc u = s.pc u := by
      unfold step
      cases hpc : s.pc t with
      | check1 => exact goto_ne _ hut
      | lock => simp only; split; · exact goto_ne _ hut
                rfl
      | check2 => simp only; split; · exact goto_ne _ hut
                  exact goto_ne _ hut
      | make o r =>
        cases r with
        | nil => exact goto_ne _ hut
        | cons m r => simp only; rw [goto_ne _ hut]; cases m <;> rfl
      | unlock => exact goto_ne _ hut
      | done => rfl
    rw [this]
    exact Nat.le_refl _

/-- The order in which the pointer is stored before the constructor's stores, inside the critical section of the object's own mutex. -/
def early : List Micro := [.lockTmp, .publish, .construct, .unlockTmp]

/-- C103 (violation). The locking and unlocking of the new object's mutex does not keep the stores in order: it allows the pointer to become visible first, and then another thread
comes through with an object that is not complete. -/
theorem init_early_false : Allowed early ∧ ∃ sched, (run early {} sched).pc 1 = .done ∧ ¬Ready (run early {} sched) := by
  refine ⟨⟨rfl, ⟨[], [.publish, .construct], [], rfl⟩, ⟨[.lockTmp, .publish], [], [], rfl⟩, ⟨[], [], [.construct, .unlockTmp], rfl⟩⟩, [0, 0, 0, 0, 0, 1], rfl, ?_⟩
  rintro ⟨o, h1, h2, _⟩
  have : o = 0 := by
    have h : (run early {} [0, 0, 0, 0, 0, 1]).inst = some 0 := rfl
    rw [h] at h1; injection h1 with h1; exact h1.symm
  subst this
  revert h2
  decide

end Verif.Log.Init
