import Verif.Deptool.Old

/-!
# Are changed sources found?
-/

namespace Verif.Deptool.Old

/-- What the property asks: a build read the sources at `start` and was stamped at `stamp`; then `findOld` says whether the sources were changed since they were read. -/
def FindsChanges (tree : List (Name × Nat)) (start stamp : Nat) (es : List Edit) : Prop :=
  (∀ x ∈ tree, x.2 ≤ start) → start ≤ stamp → (∀ e ∈ es, start < e.time) → (findOld (after tree es) stamp = true ↔ after tree es ≠ tree)

/-- C164, false of the code: a change while the build is running, the removal of a file, and a change to `.gitmodules` go unnoticed. -/
theorem findOld_false :
    (¬ FindsChanges [(['a'], 1)] 2 5 [.write ['a'] 4]) ∧ (¬ FindsChanges [(['a'], 1), (['b'], 1)] 2 5 [.remove ['b'] 9]) ∧
      ¬ FindsChanges [(['.', 'g', 'i', 't', 'm', 'o', 'd', 'u', 'l', 'e', 's'], 1)] 2 5 [.write ['.', 'g', 'i', 't', 'm', 'o', 'd', 'u', 'l', 'e', 's'] 9] := by
  refine ⟨?_, ?_, ?_⟩
  · intro h
    have := (h (by decide) (by decide) (by decide)).2 (by decide)
    revert this; decide
  · intro h
    have := (h (by decide) (by decide) (by decide)).2 (by decide)
    revert this; decide
  · intro h
    have := (h (by decide) (by decide) (by decide)).2 (by decide)
    revert this; decide

theorem findOld_apply (tree : List (Name × Nat)) (stamp : Nat) (f : Name) (t : Nat) (h : stamp < t) :
    findOld (apply tree (.write f t)) stamp = true ↔ ignored f = false ∨ findOld tree stamp = true := by
  unfold findOld apply
  simp only [List.any_cons, List.any_filter, Bool.or_eq_true, Bool.and_eq_true, decide_eq_true_eq, Bool.not_eq_true', List.any_eq_true]
  constructor
  · rintro (⟨h1, _⟩ | ⟨x, hx, hx1, hx2, hx3⟩)
    · exact Or.inl h1
    · exact Or.inr ⟨x, hx, hx2, hx3⟩
  · rintro (h1 | ⟨x, hx, hx2, hx3⟩)
    · exact Or.inl ⟨h1, h⟩
    · by_cases e : x.1 = f
      · exact Or.inl ⟨e ▸ hx2, h⟩
      · exact Or.inr ⟨x, hx, e, hx2, hx3⟩

/-- What belongs to the version control: names that begin with `_MTN` or `.git`. -/
def VersionControl (f : Name) : Prop := ∃ rest, f = '_' :: 'M' :: 'T' :: 'N' :: rest ∨ f = '.' :: 'g' :: 'i' :: 't' :: rest

theorem ignored_iff (f : Name) : ignored f = false ↔ ¬ VersionControl f := by
  rw [← Bool.not_eq_true]
  refine not_congr ?_
  unfold ignored VersionControl
  rw [Bool.or_eq_true, List.isPrefixOf_iff_prefix, List.isPrefixOf_iff_prefix]
  constructor
  · rintro (⟨r, h⟩ | ⟨r, h⟩)
    · exact ⟨r, Or.inl h.symm⟩
    · exact ⟨r, Or.inr h.symm⟩
  · rintro ⟨r, h | h⟩
    · exact Or.inl ⟨r, h.symm⟩
    · exact Or.inr ⟨r, h.symm⟩

/-- C164: when nothing is edited between the start of the build and its stamp, and nothing is removed later, `findOld` says whether a file was written, other than those of the version control. -/
theorem findOld_partial (tree : List (Name × Nat)) (start stamp : Nat) (es : List Edit) (ht : ∀ x ∈ tree, x.2 ≤ start) (hs : start ≤ stamp)
    (he : ∀ e ∈ es, ∃ f t, e = .write f t ∧ stamp < t) :
    findOld (after tree es) stamp = true ↔ ∃ f t, .write f t ∈ es ∧ ¬ VersionControl f := by
  simp only [← ignored_iff]
  have key : ∀ (es : List Edit) (tree : List (Name × Nat)), (∀ e ∈ es, ∃ f t, e = .write f t ∧ stamp < t) →
      (findOld (after tree es) stamp = true ↔ findOld tree stamp = true ∨ ∃ f t, .write f t ∈ es ∧ ignored f = false) := by
    intro es
    induction es with
    | nil => intro tree _; simp [after]
    | cons e es ih =>
      intro tree he
      obtain ⟨f, t, rfl, hlt⟩ := he e List.mem_cons_self
      have h1 := ih (apply tree (.write f t)) (fun e h => he e (List.mem_cons_of_mem _ h))
      show findOld (after (apply tree (.write f t)) es) stamp = true ↔ _
      rw [h1, findOld_apply tree stamp f t hlt]
      constructor
      · rintro ((h | h) | ⟨f', t', hm, hi⟩)
        · exact Or.inr ⟨f, t, List.mem_cons_self, h⟩
        · exact Or.inl h
        · exact Or.inr ⟨f', t', List.mem_cons_of_mem _ hm, hi⟩
      · rintro (h | ⟨f', t', hm, hi⟩)
        · exact Or.inl (Or.inr h)
        · rcases List.mem_cons.1 hm with e | hm
          · cases e; exact Or.inl (Or.inl hi)
          · exact Or.inr ⟨f', t', hm, hi⟩
  rw [key es tree he]
  constructor
  · rintro (h | h)
    · unfold findOld at h
      simp only [List.any_eq_true, Bool.and_eq_true, decide_eq_true_eq] at h
      obtain ⟨x, hx, _, h2⟩ := h
      have := ht x hx
      omega
    · exact h
  · exact Or.inr

/-- A file written after the stamp. -/
example : findOld (after [(['a'], 1), (['b'], 1)] [.write ['b'] 9, .write ['.', 'g', 'i', 't'] 10]) 5 = true := by decide
example : findOld (after [(['a'], 1), (['b'], 1)] [.write ['.', 'g', 'i', 't'] 10]) 5 = false := by decide

end Verif.Deptool.Old
