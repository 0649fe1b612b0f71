import Mathlib.Data.Finset.Max
import Mathlib.Order.Basic
import Verif.LockOrd.Spec

namespace Verif.LockOrd

variable {L : Type} [LinearOrder L]

/-- A lock in force: place on the stack, mutex, level, level before. -/
structure Entry (L : Type) where
  pos : Nat
  m : Nat
  lvl : L
  old : L

/-- The locks in force, innermost first. -/
def active : List (Frame L) → List (Entry L)
  | [] => []
  | .lock m lvl old :: fs => ⟨fs.length, m, lvl, old⟩ :: active fs
  | .unlock _ _ _ _ :: fs => (active fs).tail

def topLevel (zero : L) : List (Entry L) → L
  | [] => zero
  | e :: _ => e.lvl

/-- The stack of scoped objects is as the checks leave it. -/
def WF (zero : L) (level : Nat → L) : List (Frame L) → Prop
  | [] => True
  | .lock m lvl old :: fs => WF zero level fs ∧ old = topLevel zero (active fs) ∧ old < lvl ∧ lvl = level m
  | .unlock i m lvl old :: fs => WF zero level fs ∧ ∃ rest, active fs = ⟨i, m, lvl, old⟩ :: rest

/-- Levels rise along the locks in force. -/
def Rising (zero : L) (level : Nat → L) : List (Entry L) → Prop
  | [] => True
  | e :: es => e.old = topLevel zero es ∧ e.old < e.lvl ∧ e.lvl = level e.m ∧ Rising zero level es

theorem rising_active {zero : L} {level : Nat → L} : ∀ {fs : List (Frame L)}, WF zero level fs → Rising zero level (active fs)
  | [], _ => trivial
  | .lock m lvl old :: fs, h => ⟨h.2.1, h.2.2.1, h.2.2.2, rising_active h.1⟩
  | .unlock i m lvl old :: fs, h => by
    have := rising_active h.1
    obtain ⟨rest, hr⟩ := h.2
    simp only [active]
    rw [hr] at this ⊢
    exact this.2.2.2

theorem rising_le {zero : L} {level : Nat → L} : ∀ {es : List (Entry L)}, Rising zero level es → ∀ e ∈ es, e.lvl ≤ topLevel zero es
  | e :: es, h, x, hx => by
    rcases List.mem_cons.1 hx with rfl | hx
    · exact le_refl _
    · exact le_trans (rising_le h.2.2.2 x hx) (le_of_lt (h.1 ▸ h.2.1))

theorem rising_lt {zero : L} {level : Nat → L} {e : Entry L} {es : List (Entry L)} (h : Rising zero level (e :: es)) :
    ∀ x ∈ es, x.lvl < e.lvl := fun x hx => lt_of_le_of_lt (rising_le h.2.2.2 x hx) (h.1 ▸ h.2.1)

theorem rising_level {zero : L} {level : Nat → L} : ∀ {es : List (Entry L)}, Rising zero level es → ∀ e ∈ es, e.lvl = level e.m
  | e :: es, h, x, hx => by
    rcases List.mem_cons.1 hx with rfl | hx
    · exact h.2.2.1
    · exact rising_level h.2.2.2 x hx

theorem active_pos_lt {zero : L} {level : Nat → L} : ∀ {fs : List (Frame L)}, WF zero level fs → ∀ e ∈ active fs, e.pos < fs.length
  | .lock m lvl old :: fs, h, e, he => by
    rcases List.mem_cons.1 he with rfl | he
    · simp
    · have := active_pos_lt h.1 e he; simp; omega
  | .unlock i m lvl old :: fs, h, e, he => by
    have := active_pos_lt h.1 e (List.mem_of_mem_tail he); simp; omega

/-- A scoped lock is in force, or has a living scoped unlock. -/
theorem lock_active_or {zero : L} {level : Nat → L} : ∀ {fs : List (Frame L)}, WF zero level fs → ∀ {i : Nat} {m : Nat} {lvl old : L},
    frameAt fs i = some (.lock m lvl old) → (⟨i, m, lvl, old⟩ ∈ active fs) ∨ ∃ m lvl old, Frame.unlock i m lvl old ∈ fs
  | f :: fs, h, i, m, lvl, old, hf => by
    unfold frameAt at hf
    rw [List.reverse_cons, List.getElem?_append] at hf
    split at hf
    · next hi =>
      have hw : WF zero level fs := by cases f <;> exact h.1
      rcases lock_active_or hw (i := i) hf with h1 | ⟨m', l', o', h1⟩
      · cases f with
        | lock m2 l2 o2 => exact Or.inl (List.mem_cons_of_mem _ h1)
        | unlock j m2 l2 o2 =>
          obtain ⟨rest, hr⟩ := h.2
          simp only [active]
          rw [hr] at h1 ⊢
          rcases List.mem_cons.1 h1 with e | h1
          · right
            cases e
            exact ⟨m, lvl, old, by simp⟩
          · exact Or.inl h1
      · exact Or.inr ⟨m', l', o', List.mem_cons_of_mem _ h1⟩
    · next hi =>
      have hi2 : i - fs.reverse.length = 0 := by
        rcases Nat.eq_zero_or_pos (i - fs.reverse.length) with h0 | h0
        · exact h0
        · rw [List.getElem?_eq_none (by simp only [List.length_singleton]; omega)] at hf; cases hf
      rw [hi2] at hf
      simp only [List.getElem?_cons_zero, Option.some.injEq] at hf
      subst hf
      left
      simp only [active]
      have : i = fs.length := by simp only [List.length_reverse] at hi hi2; omega
      rw [this]
      simp

/-- What is kept for a thread. -/
structure TInv (zero : L) (level : Nat → L) (s : State L) (t : Nat) : Prop where
  wf : WF zero level (s.thr t).frames
  owns : ∀ m, s.owner m = some t ↔ ∃ e ∈ active (s.thr t).frames, e.m = m
  unprepared : (s.thr t).cur = none → (s.thr t).frames = [] ∧ (s.thr t).wait = none
  settled : (s.thr t).wait = none → ∀ c, (s.thr t).cur = some c → c = topLevel zero (active (s.thr t).frames)
  waiting : ∀ m k, (s.thr t).wait = some (m, k) → (s.thr t).cur = some (level m) ∧
    topLevel zero (active (s.thr t).frames) < level m ∧
    ((k = .push (.lock m (level m) (topLevel zero (active (s.thr t).frames)))) ∨
     (k = .pop ∧ ∃ i old fs, (s.thr t).frames = .unlock i m (level m) old :: fs))

theorem tinv_initial (zero : L) (level : Nat → L) (t : Nat) : TInv zero level initial t :=
  ⟨trivial, fun m => ⟨fun h => (by cases h), fun ⟨e, he, _⟩ => (by cases he)⟩, fun _ => ⟨rfl, rfl⟩,
    fun _ c h => (by cases h), fun m k h => (by cases h)⟩

/-- Distinct entries are about distinct mutexes. -/
theorem rising_tail_ne {zero : L} {level : Nat → L} {e : Entry L} {es : List (Entry L)} (h : Rising zero level (e :: es)) :
    ∀ x ∈ es, x.m ≠ e.m := by
  intro x hx hm
  have h1 := rising_lt h x hx
  have h2 := rising_level h x (by simp [hx])
  have h3 := rising_level h e (by simp)
  rw [h2, h3, hm] at h1
  exact absurd h1 (lt_irrefl _)

/-- What other threads see: their frames, levels and waits are untouched, and so is what they own. -/
theorem tinv_other {zero : L} {level : Nat → L} {s s' : State L} {u : Nat} (h : TInv zero level s u)
    (hthr : s'.thr u = s.thr u) (hown : ∀ m, s'.owner m = some u ↔ s.owner m = some u) : TInv zero level s' u := by
  refine ⟨by rw [hthr]; exact h.wf, fun m => by rw [hown, hthr]; exact h.owns m, by rw [hthr]; exact h.unprepared,
    by rw [hthr]; exact h.settled, by rw [hthr]; exact h.waiting⟩

omit [LinearOrder L] in
theorem setThr_same (s : State L) (t : Nat) (x : Thread L) : (s.setThr t x).thr t = x := by simp [State.setThr]
omit [LinearOrder L] in
theorem setThr_other (s : State L) (t : Nat) (x : Thread L) {u : Nat} (h : u ≠ t) : (s.setThr t x).thr u = s.thr u := by
  simp [State.setThr, h]
omit [LinearOrder L] in
theorem setThr_owner (s : State L) (t : Nat) (x : Thread L) : (s.setThr t x).owner = s.owner := rfl
omit [LinearOrder L] in
theorem setOwner_thr (s : State L) (m : Nat) (o : Option Nat) : (s.setOwner m o).thr = s.thr := rfl

theorem tinv_step {zero : L} {level : Nat → L} {s s' : State L} {t : Nat} {a : Act L} (hi : ∀ u, TInv zero level s u)
    (hlev : ∀ m lvl, a = .lock m lvl → lvl = level m)
    (hdis : ∀ i, a = .unlock i → NotUnlocked (s.thr t).frames i) (h : step zero s t a = .ok s') : ∀ u, TInv zero level s' u := by
  have ht := hi t
  intro u
  -- the moves of `t` leave other threads alone when they change ownership of `m` from or to `t` only
  have other : ∀ (s1 : State L) (x : Thread L), s1.thr = s.thr → (∀ v m, v ≠ t → (s1.owner m = some v ↔ s.owner m = some v)) →
      u ≠ t → TInv zero level (s1.setThr t x) u := by
    intro s1 x h1 h2 hut
    exact tinv_other (hi u) (by rw [setThr_other _ _ _ hut, h1]) (fun m => by rw [setThr_owner]; exact h2 u m hut)
  unfold step at h
  split at h
  · -- waiting
    next m k hw =>
    obtain ⟨hc, htop, hk⟩ := ht.waiting m k hw
    split at h
    · next hfree =>
      cases h
      have hown : ∀ v n, v ≠ t → ((s.setOwner m (some t)).owner n = some v ↔ s.owner n = some v) := by
        intro v n hv
        by_cases hn : n = m
        · subst hn; simp [State.setOwner, hfree, Ne.symm hv]
        · simp [State.setOwner, hn]
      by_cases hut : u = t
      · subst hut
        have owner_eq : ∀ n, (s.setOwner m (some u)).owner n = some u ↔ n = m ∨ s.owner n = some u := by
          intro n
          by_cases hn : n = m
          · simp [State.setOwner, hn]
          · simp [State.setOwner, hn]
        rcases hk with rfl | ⟨rfl, i, old, fs, hfs⟩
        · refine ⟨?_, ?_, ?_, ?_, ?_⟩
          · rw [setThr_same]
            exact ⟨ht.wf, rfl, htop, rfl⟩
          · intro n
            rw [setThr_same, setThr_owner, owner_eq, ht.owns n]
            simp only [active, List.mem_cons]
            constructor
            · rintro (rfl | ⟨e, he, rfl⟩)
              · exact ⟨_, Or.inl rfl, rfl⟩
              · exact ⟨e, Or.inr he, rfl⟩
            · rintro ⟨e, rfl | he, rfl⟩
              · exact Or.inl rfl
              · exact Or.inr ⟨e, he, rfl⟩
          · rw [setThr_same]; intro hn; rw [hc] at hn; cases hn
          · rw [setThr_same]; intro _ c hcc; rw [hc] at hcc; cases hcc; rfl
          · rw [setThr_same]; intro _ _ hh; cases hh
        · have hwf := ht.wf
          rw [hfs] at hwf
          obtain ⟨hwf1, rest, hrest⟩ := hwf
          have hact : active (s.thr u).frames = rest := by rw [hfs]; simp only [active, hrest, List.tail_cons]
          refine ⟨?_, ?_, ?_, ?_, ?_⟩
          · rw [setThr_same]; simp only [hfs, List.tail_cons]; exact hwf1
          · intro n
            rw [setThr_same, setThr_owner, owner_eq, ht.owns n, hact]
            simp only [hfs, List.tail_cons, hrest, List.mem_cons]
            constructor
            · rintro (rfl | ⟨e, he, rfl⟩)
              · exact ⟨_, Or.inl rfl, rfl⟩
              · exact ⟨e, Or.inr he, rfl⟩
            · rintro ⟨e, rfl | he, rfl⟩
              · exact Or.inl rfl
              · exact Or.inr ⟨e, he, rfl⟩
          · rw [setThr_same]; intro hn; rw [hc] at hn; cases hn
          · rw [setThr_same]; intro _ c hcc; rw [hc] at hcc; cases hcc
            simp only [hfs, List.tail_cons, hrest, topLevel]
          · rw [setThr_same]; intro _ _ hh; cases hh
      · exact other _ _ rfl hown hut
    · cases h; exact hi u
  · next hw =>
    split at h
    · -- prepare
      cases h
      by_cases hut : u = t
      · subst hut
        refine ⟨?_, ?_, ?_, ?_, ?_⟩
        · rw [setThr_same]; exact ht.wf
        · rw [setThr_same, setThr_owner]; exact ht.owns
        · rw [setThr_same]; intro hn; cases hn
        · rw [setThr_same]
          intro _ c hc
          cases hcur : (s.thr u).cur with
          | none =>
            simp only [hcur, Option.getD_none, Option.some.injEq] at hc
            simp only [(ht.unprepared hcur).1, active, topLevel, hc]
          | some c' =>
            simp only [hcur, Option.getD_some, Option.some.injEq] at hc
            subst hc
            exact ht.settled hw _ hcur
        · rw [setThr_same]; intro m k hk; simp only at hk; rw [hw] at hk; cases hk
      · exact other s _ rfl (fun _ _ _ => Iff.rfl) hut
    · -- lock
      next m lvl =>
      have hl := hlev m lvl rfl
      unfold scopeDown at h
      cases hcur : (s.thr t).cur with
      | none => rw [hcur] at h; cases h
      | some c =>
        rw [hcur] at h
        by_cases hlt : c < lvl
        · simp only [if_pos hlt] at h
          cases h
          by_cases hut : u = t
          · subst hut
            have htop := ht.settled hw c hcur
            refine ⟨?_, ?_, ?_, ?_, ?_⟩
            · rw [setThr_same]; exact ht.wf
            · rw [setThr_same, setThr_owner]; exact ht.owns
            · rw [setThr_same]; intro hn; cases hn
            · rw [setThr_same]; intro hn; cases hn
            · rw [setThr_same]
              intro m' k hk
              cases hk
              subst hl
              exact ⟨rfl, htop ▸ hlt, Or.inl (by rw [htop])⟩
          · exact other s _ rfl (fun _ _ _ => Iff.rfl) hut
        · simp only [if_neg hlt] at h
          cases h
    · -- unlock
      next i =>
      split at h
      · next m lvl old hfr =>
        cases hcur : (s.thr t).cur with
        | none => rw [hcur] at h; cases h
        | some c =>
          rw [hcur] at h
          unfold scopeUp at h
          by_cases hlt : c = lvl
          · simp only [if_pos hlt] at h
            unfold release at h
            split at h
            · next hown =>
              cases h
              have htop := ht.settled hw c hcur
              have hris := rising_active ht.wf
              have hact : ∃ rest, active (s.thr t).frames = ⟨i, m, lvl, old⟩ :: rest := by
                rcases lock_active_or ht.wf hfr with hm | ⟨m', l', o', hm⟩
                · cases hes : active (s.thr t).frames with
                  | nil => rw [hes] at hm; cases hm
                  | cons e es =>
                    rw [hes] at hm hris htop
                    rcases List.mem_cons.1 hm with heq | hm
                    · exact ⟨es, by rw [heq]⟩
                    · have := rising_lt hris _ hm
                      simp only [topLevel] at htop
                      rw [← htop, hlt] at this
                      exact absurd this (lt_irrefl _)
                · exact absurd hm (hdis i rfl m' l' o')
              obtain ⟨rest, hrest⟩ := hact
              rw [hrest] at hris
              by_cases hut : u = t
              · subst hut
                refine ⟨?_, ?_, ?_, ?_, ?_⟩
                · rw [setOwner_thr, setThr_same]; exact ⟨ht.wf, rest, hrest⟩
                · intro n
                  rw [setOwner_thr, setThr_same]
                  simp only [active, hrest, List.tail_cons]
                  have h1 := ht.owns n
                  rw [hrest] at h1
                  by_cases hn : n = m
                  · subst hn
                    simp only [State.setOwner, if_true]
                    constructor
                    · intro hh; cases hh
                    · rintro ⟨e, he, hem⟩
                      exact absurd hem (rising_tail_ne hris e he)
                  · simp only [State.setOwner, if_neg hn, setThr_owner, h1, List.mem_cons]
                    constructor
                    · rintro ⟨e, rfl | he, hem⟩
                      · exact absurd hem.symm hn
                      · exact ⟨e, he, hem⟩
                    · rintro ⟨e, he, hem⟩
                      exact ⟨e, Or.inr he, hem⟩
                · rw [setOwner_thr, setThr_same]; intro hn; cases hn
                · rw [setOwner_thr, setThr_same]
                  intro _ c' hc'
                  cases hc'
                  simp only [active, hrest, List.tail_cons]
                  exact hris.1
                · rw [setOwner_thr, setThr_same]; intro m' k hk; simp only at hk; rw [hw] at hk; cases hk
              · refine tinv_other (hi u) (by rw [setOwner_thr, setThr_other _ _ _ hut]) (fun n => ?_)
                have hown' : s.owner m = some t := hown
                by_cases hn : n = m
                · subst hn; simp [State.setOwner, hown', Ne.symm hut]
                · simp [State.setOwner, hn, setThr_owner]
            · cases h
          · simp only [if_neg hlt] at h
            cases h
      · cases h
    · -- destroy
      split at h
      · next m lvl old fs hfs =>
        unfold release at h
        split at h
        · next s1 hrel =>
          split at hrel
          · next hown =>
            cases hrel
            have hwf := ht.wf
            rw [hfs] at hwf
            have hris := rising_active ht.wf
            rw [hfs] at hris
            simp only [active] at hris
            split at h
            · next c hup =>
              cases h
              unfold scopeUp at hup
              split at hup
              · cases hup
              · split at hup
                · cases hup
                  by_cases hut : u = t
                  · subst hut
                    refine ⟨?_, ?_, ?_, ?_, ?_⟩
                    · rw [setThr_same]; exact hwf.1
                    · intro n
                      rw [setThr_same, setThr_owner]
                      have h1 := ht.owns n
                      rw [hfs] at h1
                      simp only [active] at h1
                      by_cases hn : n = m
                      · subst hn
                        simp only [State.setOwner, if_true]
                        constructor
                        · intro hh; cases hh
                        · rintro ⟨e, he, hem⟩
                          exact absurd hem (rising_tail_ne hris e he)
                      · simp only [State.setOwner, if_neg hn, h1, List.mem_cons]
                        constructor
                        · rintro ⟨e, rfl | he, hem⟩
                          · exact absurd hem.symm hn
                          · exact ⟨e, he, hem⟩
                        · rintro ⟨e, he, hem⟩
                          exact ⟨e, Or.inr he, hem⟩
                    · rw [setThr_same]; intro hn; cases hn
                    · rw [setThr_same]; intro _ c' hc'; cases hc'; exact hwf.2.1
                    · rw [setThr_same]; intro m' k hk; simp only at hk; rw [hw] at hk; cases hk
                  · refine other _ _ rfl (fun v n hv => ?_) hut
                    by_cases hn : n = m
                    · subst hn; simp [State.setOwner, hown, Ne.symm hv]
                    · simp [State.setOwner, hn]
                · cases hup
            · cases h
            · cases h
          · cases hrel
        · cases h
        · cases h
      · next i m lvl old fs hfs =>
        unfold scopeDown at h
        cases hcur : (s.thr t).cur with
        | none => rw [hcur] at h; cases h
        | some c =>
          rw [hcur] at h
          by_cases hlt : c < lvl
          · simp only [if_pos hlt] at h
            split at h
            · next hold =>
              cases h
              have hwf := ht.wf
              rw [hfs] at hwf
              obtain ⟨hwf1, rest, hrest⟩ := hwf
              have hl : lvl = level m := by
                have := rising_level (rising_active hwf1) ⟨i, m, lvl, old⟩ (by rw [hrest]; simp)
                exact this
              by_cases hut : u = t
              · subst hut
                have htop := ht.settled hw c hcur
                refine ⟨?_, ?_, ?_, ?_, ?_⟩
                · rw [setThr_same]; exact ht.wf
                · rw [setThr_same, setThr_owner]; exact ht.owns
                · rw [setThr_same]; intro hn; cases hn
                · rw [setThr_same]; intro hn; cases hn
                · rw [setThr_same]
                  intro m' k hk
                  cases hk
                  subst hl
                  exact ⟨rfl, htop ▸ hlt, Or.inr ⟨rfl, i, old, fs, hfs⟩⟩
              · exact other s _ rfl (fun _ _ _ => Iff.rfl) hut
            · cases h
          · simp only [if_neg hlt] at h
            cases h
      · cases h

theorem tinv_run {zero : L} {level : Nat → L} : ∀ (acts : List (Nat × Act L)) (s s' : State L), (∀ u, TInv zero level s u) →
    Consistent level acts → Disciplined zero s acts → run zero s acts = .ok s' → ∀ u, TInv zero level s' u
  | [], s, s', hi, _, _, h => by cases h; exact hi
  | (t, a) :: acts, s, s', hi, hc, hd, h => by
    simp only [run, Res.bind_eq_ok] at h
    obtain ⟨s1, h1, h2⟩ := h
    have hi1 := tinv_step hi (fun m lvl e => hc t m lvl (by simp [e])) (fun i e => hd [] t i acts s (by simp [e]) rfl) h1
    refine tinv_run acts s1 s' hi1 (fun t m lvl hm => hc t m lvl (List.mem_cons_of_mem _ hm)) ?_ h2
    intro pre u i post s'' e hr
    exact hd ((t, a) :: pre) u i post s'' (by rw [e]; rfl) (by simp only [run, h1, Res.bind_ok]; exact hr)

/-- Waiting goes upwards: the thread waited for is at a higher level, or not waiting. -/
theorem waits_up {zero : L} {level : Nat → L} {s : State L} (hi : ∀ u, TInv zero level s u) {t u : Nat} (h : WaitsFor s t u) :
    ∃ c, (s.thr t).cur = some c ∧ ∀ m k, (s.thr u).wait = some (m, k) → ∃ c', (s.thr u).cur = some c' ∧ c < c' := by
  obtain ⟨m, k, hw, ho⟩ := h
  obtain ⟨hc, _, _⟩ := (hi t).waiting m k hw
  refine ⟨level m, hc, fun m' k' hw' => ?_⟩
  obtain ⟨hc', htop', _⟩ := (hi u).waiting m' k' hw'
  obtain ⟨e, he, rfl⟩ := ((hi u).owns m).1 ho
  refine ⟨_, hc', lt_of_le_of_lt ?_ htop'⟩
  have hr := rising_active (hi u).wf
  rw [← rising_level hr e he]
  exact rising_le hr e he

/-- Only threads that took a step are anything but new. -/
theorem idle_run {zero : L} : ∀ (acts : List (Nat × Act L)) (s s' : State L) (u : Nat), (∀ p ∈ acts, p.1 ≠ u) →
    run zero s acts = .ok s' → s'.thr u = s.thr u
  | [], s, s', u, _, h => by cases h; rfl
  | (t, a) :: acts, s, s', u, hu, h => by
    simp only [run, Res.bind_eq_ok] at h
    obtain ⟨s1, h1, h2⟩ := h
    have hut : u ≠ t := fun e => hu (t, a) (by simp) e.symm
    rw [idle_run acts s1 s' u (fun p hp => hu p (List.mem_cons_of_mem _ hp)) h2]
    unfold step at h1
    split at h1
    · split at h1 <;> cases h1
      · rw [setThr_other _ _ _ hut]; rfl
      · rfl
    · split at h1
      · cases h1; rw [setThr_other _ _ _ hut]
      · split at h1 <;> cases h1
        rw [setThr_other _ _ _ hut]
      · split at h1
        · split at h1
          · unfold release at h1
            split at h1 <;> cases h1
            rw [setOwner_thr, setThr_other _ _ _ hut]
          · cases h1
          · cases h1
        · cases h1
      · split at h1
        · unfold release at h1
          split at h1
          · next hr =>
            split at hr <;> cases hr
            split at h1 <;> cases h1
            rw [setThr_other _ _ _ hut]; rfl
          · cases h1
          · cases h1
        · split at h1
          · split at h1 <;> cases h1
            rw [setThr_other _ _ _ hut]
          · cases h1
          · cases h1
        · cases h1

end Verif.LockOrd
