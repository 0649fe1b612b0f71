import Verif.DepVC.Alias

/-! # C241: names of directories -/

namespace Verif.DepVC.Alias

variable {D A R : Type}

/-! ## Specification -/

/-- `getcwd` gives a name that leads to the directory. -/
def Tree.Sound (t : Tree D A R) : Prop := ∀ d, t.absTo (t.phys d) = some d

/-- A name that leads to a directory from everywhere. -/
def Leads (t : Tree D A R) (n : Name A R) (d : D) : Prop := ∀ d', t.goes d' n = some d

/-- The names given to `aliasChdir` are absolute. -/
def Absolute : List (Op A R) → Prop
  | [] => True
  | .enter (.abs _) :: os => Absolute os
  | .enter (.rel _) :: _ => False
  | .plain _ :: os => Absolute os

/-! ## Lemmas -/

variable [DecidableEq A]

/-- The remembered names lead where they should. -/
def Good (t : Tree D A R) (s : St D A R) : Prop := ∀ d n, known s (t.phys d) = some n → Leads t n d

theorem phys_inj (t : Tree D A R) (h : t.Sound) (d d' : D) (e : t.phys d = t.phys d') : d = d' := by
  have := h d
  rw [e, h d'] at this
  exact (Option.some.inj this).symm

theorem known_cons (a a' : A) (n : Name A R) (d : D) (l : List (A × Name A R)) : known ⟨d, (a, n) :: l⟩ a' = if a = a' then some n else known ⟨d, l⟩ a' := by
  simp only [known, List.find?_cons]
  by_cases h : a = a'
  · simp [h]
  · simp [h]

theorem known_cwd (s : St D A R) (d : D) (a : A) : known { s with cwd := d } a = known s a := rfl

theorem good_chdir (t : Tree D A R) (ht : t.Sound) (s s' : St D A R) (a : A) (hg : Good t s) (e : aliasChdir t s (.abs a) = some s') : Good t s' := by
  simp only [aliasChdir] at e
  split at e
  · cases e
  · rename_i d hd
    split at e
    · cases e
      exact hg
    · rename_i hk
      cases e
      intro d1 n h
      rw [known_cons] at h
      split at h
      · rename_i hp
        cases h
        rw [← phys_inj t ht _ _ hp]
        intro d'
        exact hd
      · exact hg d1 n h

theorem good_run (t : Tree D A R) (ht : t.Sound) : ∀ (os : List (Op A R)) (s s' : St D A R), Good t s → Absolute os → run t s os = some s' → Good t s' := by
  intro os
  induction os with
  | nil => intro s s' hg _ e; cases e; exact hg
  | cons o os ih =>
    intro s s' hg ha e
    simp only [run] at e
    split at e
    · cases e
    · rename_i s1 h1
      cases o with
      | enter n =>
        cases n with
        | rel r => exact ha.elim
        | abs a => exact ih s1 s' (good_chdir t ht s s1 a hg h1) ha e
      | plain n =>
        cases h1
        exact ih { s with cwd := (t.goes s.cwd n).getD s.cwd } s' hg ha e

theorem known_step (t : Tree D A R) (s s' : St D A R) (o : Op A R) (e : step t s o = some s') (a : A) (n : Name A R) (h : known s a = some n) : known s' a = some n := by
  cases o with
  | plain m => cases e; exact h
  | enter m =>
    simp only [step, aliasChdir] at e
    split at e
    · cases e
    · rename_i d hd
      split at e
      · cases e; exact h
      · rename_i hk
        cases e
        rw [known_cons]
        split
        · rename_i hp
          rw [hp, h] at hk
          cases hk
        · exact h

theorem known_run (t : Tree D A R) : ∀ (os : List (Op A R)) (s s' : St D A R), run t s os = some s' → ∀ a n, known s a = some n → known s' a = some n := by
  intro os
  induction os with
  | nil => intro s s' e a n h; cases e; exact h
  | cons o os ih =>
    intro s s' e a n h
    simp only [run] at e
    split at e
    · cases e
    · rename_i s1 h1
      exact ih s1 s' e a n (known_step t s s1 o h1 a n h)

theorem getCwd_leads (t : Tree D A R) (ht : t.Sound) (s : St D A R) (hg : Good t s) : Leads t (aliasGetCwd t s) s.cwd := by
  simp only [aliasGetCwd]
  split
  · rename_i n h
    exact hg _ n h
  · intro d'
    exact ht s.cwd

theorem good_start (t : Tree D A R) (ht : t.Sound) (d : D) (a : Option A) (s : St D A R) (e : startIn t d (a.map .abs) = some s) : Good t s := by
  have h0 : Good t (⟨d, []⟩ : St D A R) := fun _ _ h => by cases h
  cases a with
  | none => cases e; exact h0
  | some a => exact good_chdir t ht _ s a h0 e

/-! ## The claims -/

/-- C241: wherever the program is, the name it gives the current directory leads there, from everywhere, if all names it was given are absolute. -/
theorem cwd_leads_partial (t : Tree D A R) (ht : t.Sound) (d : D) (pwd : Option A) (s0 s : St D A R) (h0 : startIn t d (pwd.map .abs) = some s0) (os : List (Op A R)) (ha : Absolute os) (h : run t s0 os = some s) :
    Leads t (aliasGetCwd t s) s.cwd :=
  getCwd_leads t ht s (good_run t ht os s0 s (good_start t ht d pwd s0 h0) ha h)

/-- C241: a directory is found again: with the name asked for before, `aliasChdir` leads back after whatever happened in between, and the directory still has that name. -/
theorem comes_back_partial (t : Tree D A R) (ht : t.Sound) (d : D) (pwd : Option A) (s0 s s1 : St D A R) (h0 : startIn t d (pwd.map .abs) = some s0) (os os' : List (Op A R)) (ha : Absolute os) (h : run t s0 os = some s)
    (h1 : run t s os' = some s1) : ∃ s2, aliasChdir t s1 (aliasGetCwd t s) = some s2 ∧ s2.cwd = s.cwd ∧ ((∃ n, known s (t.phys s.cwd) = some n) → aliasGetCwd t s2 = aliasGetCwd t s) := by
  have hl := cwd_leads_partial t ht d pwd s0 s h0 os ha h s1.cwd
  cases hk : known s1 (t.phys s.cwd) with
  | some m =>
    refine ⟨{ s1 with cwd := s.cwd }, by simp only [aliasChdir, hl, hk], rfl, ?_⟩
    intro ⟨n, hn⟩
    have := known_run t os' s s1 h1 _ _ hn
    simp only [aliasGetCwd, known_cwd, this, hn]
  | none =>
    refine ⟨⟨s.cwd, (t.phys s.cwd, aliasGetCwd t s) :: s1.alias⟩, by simp only [aliasChdir, hl, hk], rfl, ?_⟩
    intro ⟨n, hn⟩
    have := known_run t os' s s1 h1 _ _ hn
    rw [this] at hk
    cases hk

/-- C241: a directory entered by a name for the first time keeps that name; entered once more by another name it does not change it. -/
theorem first_name (t : Tree D A R) (s s' s'' : St D A R) (n : Name A R) (hn : known s (t.phys s'.cwd) = none) (e : aliasChdir t s n = some s') (os : List (Op A R)) (h : run t s' os = some s'') (hc : s''.cwd = s'.cwd) :
    aliasGetCwd t s'' = n := by
  have hk : known s' (t.phys s'.cwd) = some n := by
    simp only [aliasChdir] at e
    split at e
    · cases e
    · rename_i d hd
      split at e
      · rename_i m hm
        cases e
        rw [hm] at hn
        cases hn
      · cases e
        rw [known_cons, if_pos rfl]
  have := known_run t os s' s'' h _ _ hk
  simp only [aliasGetCwd, hc, this]

/-- C241: with PWD as the shell sets it, the program works where it was started, and under that name. -/
theorem start_name (t : Tree D A R) (d : D) (n : Name A R) (h : t.goes d n = some d) : ∃ s, startIn t d (some n) = some s ∧ s.cwd = d ∧ aliasGetCwd t s = n := by
  refine ⟨⟨d, [(t.phys d, n)]⟩, ?_, rfl, ?_⟩
  · simp only [startIn, aliasChdir, h]
    rfl
  · simp only [aliasGetCwd, known_cons, if_true]

/-- C241: with a PWD that names another directory the program works in that one, although it was started elsewhere. -/
theorem start_elsewhere_false (t : Tree D A R) (d d' : D) (n : Name A R) (h : t.goes d n = some d') : ∃ s, startIn t d (some n) = some s ∧ s.cwd = d' := by
  refine ⟨⟨d', [(t.phys d', n)]⟩, ?_, rfl⟩
  simp only [startIn, aliasChdir, h]
  rfl

/-- Three directories: the root 0, with a link `7` to 1 besides the names `0`, `1` and `2`; the relative name leads one further. -/
def small : Tree (Fin 3) Nat Unit where
  absTo a := if a = 0 then some 0 else if a = 1 ∨ a = 7 then some 1 else if a = 2 then some 2 else none
  relTo d _ := if d = 0 then some 1 else if d = 1 then some 2 else none
  phys d := d.val

theorem small_sound : small.Sound := by intro d; revert d; decide

/-- C241: with a relative name neither holds: the name given does not lead back, but elsewhere or nowhere. -/
theorem relative_false : ∃ (s s1 s2 : St (Fin 3) Nat Unit), startIn small 0 none = some s ∧ run small s [.enter (.rel ())] = some s1 ∧ s1.cwd = 1 ∧ aliasGetCwd small s1 = .rel () ∧
    aliasChdir small s1 (aliasGetCwd small s1) = some s2 ∧ s2.cwd = 2 ∧ ¬ Leads small (aliasGetCwd small s1) 1 := by
  refine ⟨⟨0, []⟩, ⟨1, [(1, .rel ())]⟩, ⟨2, [(2, .rel ()), (1, .rel ())]⟩, rfl, rfl, rfl, rfl, rfl, rfl, ?_⟩
  intro h
  exact absurd (h 1) (by decide)

/-- C241: nor if the links change meanwhile: the link `7` is moved from the directory 1 to the directory 2. -/
theorem moved_link_false : ∃ (t' : Tree (Fin 3) Nat Unit) (s s1 : St (Fin 3) Nat Unit), t'.Sound ∧ startIn small 1 (some (.abs 7)) = some s ∧ aliasChdir t' s (aliasGetCwd small s) = some s1 ∧ s.cwd = 1 ∧ s1.cwd = 2 := by
  refine ⟨{ small with absTo := fun a => if a = 7 then some 2 else small.absTo a }, ⟨1, [(1, .abs 7)]⟩, ⟨2, [(2, .abs 7), (1, .abs 7)]⟩, ?_, rfl, rfl, rfl, rfl⟩
  intro d
  revert d
  decide

/-- Start at the link, go elsewhere, come back by the other name: the directory is still called by the link. -/
example : ∃ s, startIn small 1 (some (.abs 7)) = some s ∧ Absolute [Op.enter (.abs 2), .plain (.abs 0), .enter (.abs 1)] (A := Nat) (R := Unit) ∧ (run small s [.enter (.abs 2), .plain (.abs 0), .enter (.abs 1)]).map (aliasGetCwd small) = some (.abs 7) :=
  ⟨⟨1, [(1, .abs 7)]⟩, rfl, trivial, rfl⟩

end Verif.DepVC.Alias
