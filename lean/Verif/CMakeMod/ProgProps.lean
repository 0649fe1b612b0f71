import Verif.CMakeMod.Prog

/-! # The macros that find programs and perl modules (C265) -/

namespace Verif.CMakeMod.Prog

open Verif.Deptool.Deps (Text)

/-! ## Specification -/

/-- The places in their order: where we build, what the user adds, the installation, the system. -/
def World.places (w : World) : List Text := w.binaryDir :: w.extra ++ w.prefixBin :: w.sysPath

/-- The program of a place. -/
def World.at (w : World) (d : Text) : Text := d ++ "/".toList ++ w.program

/-- The program to be used: the one known before if it is still there, otherwise the first. -/
inductive Chosen (w : World) : Option Text → Text → Prop
  | known {p} (h : w.present p = true) : Chosen w (some p) p
  | first {old a d b} (ho : ∀ p, old = some p → w.present p = false) (e : w.places = a ++ d :: b) (ha : ∀ x ∈ a, w.present (w.at x) = false) (hd : w.present (w.at d) = true) :
      Chosen w old (w.at d)

/-- There is one. -/
def There (w : World) (old : Option Text) : Prop := (∃ p, old = some p ∧ w.present p = true) ∨ ∃ d ∈ w.places, w.present (w.at d) = true

/-! ## Lemmas -/

def pathOf (w : World) (old : Option Text) : Option Text := search w (search w (recheck w old) ([w.binaryDir] ++ w.extra ++ [w.prefixBin])) w.sysPath

theorem at_eq (w : World) (d : Text) : d ++ '/' :: w.program = w.at d := by
  unfold World.at
  rw [List.append_assoc]
  rfl

theorem find_at (w : World) (ds : List Text) (p : Text) : (ds.map fun d => d ++ '/' :: w.program).find? w.present = some p ↔
    ∃ a d b, ds = a ++ d :: b ∧ (∀ x ∈ a, w.present (w.at x) = false) ∧ w.present (w.at d) = true ∧ p = w.at d := by
  simp only [at_eq]
  induction ds with
  | nil => simp
  | cons x ds ih =>
    rw [List.map_cons, List.find?_cons]
    cases hx : w.present (w.at x) with
    | true =>
      constructor
      · intro h
        cases h
        exact ⟨[], x, ds, rfl, by simp, hx, rfl⟩
      · rintro ⟨a, d, b, e, ha, hd, rfl⟩
        cases a with
        | nil => cases e; rfl
        | cons y a =>
          cases e
          rw [ha x (by simp)] at hx
          cases hx
    | false =>
      refine ih.trans ?_
      constructor
      · rintro ⟨a, d, b, rfl, ha, hd, rfl⟩
        refine ⟨x :: a, d, b, rfl, ?_, hd, rfl⟩
        intro y hy
        rcases List.mem_cons.mp hy with rfl | hy
        · exact hx
        · exact ha y hy
      · rintro ⟨a, d, b, e, ha, hd, rfl⟩
        cases a with
        | nil =>
          cases e
          rw [hx] at hd
          cases hd
        | cons y a =>
          cases e
          exact ⟨a, d, b, rfl, fun z hz => ha z (by simp [hz]), hd, rfl⟩

theorem search_none (w : World) (old : Option Text) (h : recheck w old = none) : pathOf w old = (w.places.map fun d => d ++ '/' :: w.program).find? w.present := by
  have e : w.places = ([w.binaryDir] ++ w.extra ++ [w.prefixBin]) ++ w.sysPath := by simp [World.places]
  unfold pathOf
  rw [h, e, List.map_append, List.find?_append]
  simp only [search]
  cases List.find? w.present (([w.binaryDir] ++ w.extra ++ [w.prefixBin]).map fun d => d ++ '/' :: w.program) <;> rfl

theorem recheck_none (w : World) (old : Option Text) : recheck w old = none ↔ ∀ p, old = some p → w.present p = false := by
  cases old with
  | none => simp [recheck]
  | some p => simp [recheck]

theorem path_iff (w : World) (old : Option Text) (p : Text) : pathOf w old = some p ↔ Chosen w old p := by
  cases h : recheck w old with
  | some q =>
    have hq : old = some q ∧ w.present q = true := by
      cases old with
      | none => cases h
      | some r =>
        rw [recheck] at h
        split at h
        · rename_i hr
          cases h
          exact ⟨rfl, hr⟩
        · cases h
    obtain ⟨rfl, hq⟩ := hq
    have e : pathOf w (some q) = some q := by
      unfold pathOf
      rw [h]
      rfl
    rw [e]
    constructor
    · intro h
      cases h
      exact .known hq
    · intro hc
      cases hc with
      | known _ => rfl
      | first ho _ _ _ =>
        rw [ho q rfl] at hq
        cases hq
  | none =>
    rw [search_none w old h, find_at]
    rw [recheck_none] at h
    constructor
    · rintro ⟨a, d, b, e, ha, hd, rfl⟩
      exact .first h e ha hd
    · intro hc
      cases hc with
      | known hk =>
        rw [h p rfl] at hk
        cases hk
      | first _ e ha hd => exact ⟨_, _, _, e, ha, hd, rfl⟩

theorem there_iff (w : World) (old : Option Text) : (pathOf w old).isSome = true ↔ There w old := by
  rw [Option.isSome_iff_exists]
  constructor
  · rintro ⟨p, h⟩
    cases (path_iff w old p).mp h with
    | known hk => exact .inl ⟨p, rfl, hk⟩
    | first _ e _ hd => exact .inr ⟨_, by rw [e]; simp, hd⟩
  · intro h
    cases hp : pathOf w old with
    | some p => exact ⟨p, rfl⟩
    | none =>
      exfalso
      have hr : recheck w old = none := by
        cases hr : recheck w old with
        | none => rfl
        | some q =>
          unfold pathOf at hp
          rw [hr] at hp
          cases hp
      rw [search_none w old hr, List.find?_eq_none] at hp
      rcases h with ⟨p, rfl, h⟩ | ⟨d, hd, h⟩
      · rw [(recheck_none w _).mp hr p rfl] at h
        cases h
      · exact hp _ (List.mem_map.mpr ⟨d, hd, at_eq w d⟩) h

/-! ## C265 -/

/-- An optional program never ends cmake; it is used exactly if there is one and the user did not turn it off. What is taken is there, also if another was known before that has vanished. -/
theorem with_program (w : World) (v : Var) (hr : v.required = false) :
    ∃ v', withProgram w v = some v' ∧ (v'.enabled = some true ↔ v.withOpt ≠ some false ∧ There w v.path) ∧ ∀ p, v'.path = some p ↔ Chosen w v.path p := by
  unfold withProgram findProgram
  simp only [hr, Bool.false_and, Bool.false_eq_true, if_false, Option.map_some]
  refine ⟨_, rfl, ?_, path_iff w v.path⟩
  simp only [Option.some.injEq]
  rw [Bool.and_eq_true]
  refine and_congr ?_ (there_iff w v.path)
  cases v.withOpt with
  | none => simp
  | some b => cases b <;> simp

/-- A required program ends cmake exactly if there is none; otherwise the right one is taken. -/
theorem required_program (w : World) (v : Var) :
    (requiredProgram w v = none ↔ ¬ There w v.path) ∧ ∀ v', requiredProgram w v = some v' → ∃ p, v'.path = some p ∧ Chosen w v.path p := by
  have hp : ∀ q, pathOf w v.path = q → search w (search w (recheck w v.path) ([w.binaryDir] ++ w.extra ++ [w.prefixBin])) w.sysPath = q := fun _ h => h
  rw [← there_iff]
  unfold requiredProgram findProgram
  cases h : pathOf w v.path with
  | none => simp only [hp _ h]; simp
  | some p =>
    simp only [hp _ h]
    refine ⟨by simp, ?_⟩
    intro v' e
    simp only [Option.isNone_some, Bool.and_false, Bool.false_eq_true, if_false, Option.some.injEq] at e
    exact ⟨p, by rw [← e], (path_iff w v.path p).mp h⟩

/-- What is taken is there. -/
theorem chosen_present (w : World) (old : Option Text) (p : Text) (h : Chosen w old p) : w.present p = true := by
  cases h with
  | known h => exact h
  | first _ _ _ hd => exact hd

/-- A module is used exactly if the user did not turn it off and it was found, now or before; if it is turned off, nothing is looked for and cmake does not end. -/
theorem with_module (perl loads : Bool) (m : Mod) : (withModule perl loads m = none ↔ m.withOpt ≠ some false ∧ m.required = true ∧ m.found = false ∧ ¬ (perl = true ∧ loads = true)) ∧
    ∀ m', withModule perl loads m = some m' → (m'.enabled = some true ↔ m.withOpt ≠ some false ∧ (m.found = true ∨ perl = true ∧ loads = true)) := by
  obtain ⟨f, r, o, e, n⟩ := m
  unfold withModule findModule
  rcases o with _ | o
  · cases f <;> cases r <;> cases perl <;> cases loads <;> simp <;> rintro m' rfl <;> rfl
  · cases o <;> cases f <;> cases r <;> cases perl <;> cases loads <;> simp <;> rintro m' rfl <;> rfl

/-- A required module ends cmake exactly if it is not found, now or before. -/
theorem required_module (perl loads : Bool) (m : Mod) : requiredModule perl loads m = none ↔ m.found = false ∧ ¬ (perl = true ∧ loads = true) := by
  obtain ⟨f, r, o, e, n⟩ := m
  unfold requiredModule findModule
  cases f <;> cases perl <;> cases loads <;> simp

/-- False: that what is required is marked as used, as headers and libraries are: for programs and modules the mark stays what it was. -/
theorem required_mark_false (w : World) (v v' : Var) (h : requiredProgram w v = some v') : v'.enabled = v.enabled := by
  unfold requiredProgram findProgram at h
  simp only at h
  split at h
  · cases h
  · cases h
    rfl

theorem required_module_mark_false (perl loads : Bool) (m m' : Mod) (h : requiredModule perl loads m = some m') : m'.enabled = m.enabled := by
  unfold requiredModule findModule at h
  simp only at h
  split at h
  · cases h; rfl
  · split at h
    · cases h; rfl
    · cases h

/-- False: that modules removed since are noticed, as programs are. -/
theorem module_vanished_false (perl : Bool) : withModule perl false { found := true } = some { found := true, withOpt := some true, enabled := some true } := rfl

/-! ### The hypotheses are met -/

def demo : World := ⟨['m'], ['b'], [['x']], ['p'], [['s']], fun t => t == ['x', '/', 'm'] || t == ['s', '/', 'm']⟩

example : withProgram demo { path := some ['o'] } = some { path := some ['x', '/', 'm'], withOpt := some true, enabled := some true } := by decide

example : There demo none := .inr ⟨['s'], by decide, by decide⟩

end Verif.CMakeMod.Prog
