import Verif.CMakeMod.Find

/-! # The macros that find headers and libraries (C264) -/

namespace Verif.CMakeMod.Find

open Verif.Deptool.Deps (Text)

/-! ## Specification -/

/-- The first of some places where something is. -/
inductive FirstAt (P : Text → Prop) : List Text → Text → Prop
  | here {d ds} (h : P d) : FirstAt P (d :: ds) d
  | later {d ds x} (h : ¬ P d) (hs : FirstAt P ds x) : FirstAt P (d :: ds) x

/-- The places for headers: the installation, what the user adds, the system. -/
def World.incPlaces (w : World) : List Text := [w.prefixInc] ++ w.extraInc ++ w.sysInc

def World.libPlaces (w : World) : List Text := [w.prefixLib] ++ w.extraLib ++ w.sysLib

/-- Where the header is. -/
def World.HeaderAt (w : World) (d : Text) : Prop := FirstAt (fun d => w.header d = true) w.incPlaces d

/-- Some place has a library of that name. -/
def World.Has (w : World) (n : Text) : Prop := ∃ d ∈ w.libPlaces, w.library d n = true

/-- The library: the first name that some place has, in the first place that has it. -/
def World.LibraryAt (w : World) (names : List Text) (d n : Text) : Prop := FirstAt w.Has names n ∧ FirstAt (fun d => w.library d n = true) w.libPlaces d

/-- All is there. -/
def World.Complete (w : World) (names : List Text) : Prop := (∃ d ∈ w.incPlaces, w.header d = true) ∧ ∃ n ∈ names, w.Has n

/-- A variable in a new build directory. -/
def Fresh (v : Var) : Prop := v.inc = none ∧ v.lib = none

/-! ## Lemmas -/

theorem find_first (p : Text → Bool) (ds : List Text) (d : Text) : ds.find? p = some d ↔ FirstAt (fun d => p d = true) ds d := by
  induction ds with
  | nil =>
    constructor
    · intro h; cases h
    · intro h; cases h
  | cons x ds ih =>
    rw [List.find?_cons]
    cases hp : p x with
    | true =>
      constructor
      · intro h
        cases h
        exact .here hp
      · intro h
        cases h with
        | here _ => rfl
        | later hn _ => exact absurd hp hn
    | false =>
      constructor
      · intro h
        exact .later (by simp [hp]) (ih.mp h)
      · intro h
        cases h with
        | here h => rw [hp] at h; cases h
        | later _ hs => exact ih.mpr hs

theorem first_exists (P : Text → Prop) (ds : List Text) : (∃ d, FirstAt P ds d) ↔ ∃ d ∈ ds, P d := by
  constructor
  · rintro ⟨d, h⟩
    induction h with
    | here h => exact ⟨_, by simp, h⟩
    | later _ _ ih =>
      obtain ⟨x, hx, h⟩ := ih
      exact ⟨x, by simp [hx], h⟩
  · rintro ⟨d, hd, h⟩
    induction ds with
    | nil => cases hd
    | cons x ds ih =>
      by_cases hx : P x
      · exact ⟨x, .here hx⟩
      · rcases List.mem_cons.mp hd with rfl | hd
        · exact absurd h hx
        · obtain ⟨y, hy⟩ := ih hd
          exact ⟨y, .later hx hy⟩

theorem findPath_none (p : Text → Bool) (a b c : List Text) : findPath p (findPath p (findPath p none a) b) c = (a ++ b ++ c).find? p := by
  rw [List.find?_append, List.find?_append]
  simp only [findPath]
  cases a.find? p <;> cases b.find? p <;> simp

theorem findLib_some (w : World) (x : Text × Text) (n : Text) : findLib w (some x) n = some x := rfl

theorem findLib_none (w : World) (n : Text) : findLib w none n = (w.libPlaces.find? fun d => w.library d n).map fun d => (d, n) := by
  unfold findLib World.libPlaces
  rw [List.find?_append, List.find?_append]
  simp only [findIn]
  cases List.find? (fun d => w.library d n) [w.prefixLib] <;> cases List.find? (fun d => w.library d n) w.extraLib <;> simp

theorem fold_some (w : World) (names : List Text) (x : Text × Text) : names.foldl (findLib w) (some x) = some x := by
  induction names with
  | nil => rfl
  | cons n names ih => rw [List.foldl_cons, findLib_some, ih]

theorem fold_none (w : World) (names : List Text) (d n : Text) : names.foldl (findLib w) none = some (d, n) ↔ w.LibraryAt names d n := by
  unfold World.LibraryAt
  induction names with
  | nil =>
    constructor
    · intro h; cases h
    · rintro ⟨h, -⟩; cases h
  | cons m names ih =>
    rw [List.foldl_cons, findLib_none]
    cases hf : w.libPlaces.find? (fun d => w.library d m) with
    | some e =>
      have he := (find_first _ _ _).mp hf
      have hm : w.Has m := (first_exists _ _).mp ⟨e, he⟩
      rw [Option.map_some, fold_some]
      constructor
      · intro h
        cases h
        exact ⟨.here hm, he⟩
      · rintro ⟨h1, h2⟩
        cases h1 with
        | here _ =>
          have := (find_first _ _ _).mpr h2
          rw [hf] at this
          cases this
          rfl
        | later hn _ => exact absurd hm hn
    | none =>
      have hm : ¬ w.Has m := fun h => by
        obtain ⟨e, he⟩ := (first_exists _ _).mpr h
        have := (find_first _ _ _).mpr he
        rw [hf] at this
        cases this
      rw [Option.map_none, ih]
      constructor
      · rintro ⟨h1, h2⟩; exact ⟨.later hm h1, h2⟩
      · rintro ⟨h1, h2⟩
        cases h1 with
        | here h => exact absurd h hm
        | later _ h => exact ⟨h, h2⟩

theorem inc_iff (w : World) (d : Text) : findPath w.header (findPath w.header (findPath w.header none [w.prefixInc]) w.extraInc) w.sysInc = some d ↔ w.HeaderAt d := by
  rw [findPath_none]
  exact find_first _ _ _

theorem isSome_inc (w : World) : (findPath w.header (findPath w.header (findPath w.header none [w.prefixInc]) w.extraInc) w.sysInc).isSome = true ↔ ∃ d ∈ w.incPlaces, w.header d = true := by
  rw [Option.isSome_iff_exists, ← first_exists]
  simp only [inc_iff]
  rfl

theorem isSome_lib (w : World) (names : List Text) : (names.foldl (findLib w) none).isSome = true ↔ ∃ n ∈ names, w.Has n := by
  rw [Option.isSome_iff_exists, ← first_exists]
  constructor
  · rintro ⟨⟨d, n⟩, h⟩; exact ⟨n, ((fold_none w names d n).mp h).1⟩
  · rintro ⟨n, h⟩
    have hn : w.Has n := by
      induction h with
      | here h => exact h
      | later _ _ ih => exact ih
    obtain ⟨d, hd⟩ := (first_exists _ _).mpr hn
    exact ⟨(d, n), (fold_none w names d n).mpr ⟨h, hd⟩⟩

/-! ## C264 -/

/-- In a new build directory, an optional library never ends cmake, and it is used exactly if all is there and the user did not turn it off. -/
theorem with_library_partial (w : World) (names : List Text) (v : Var) (hf : Fresh v) (hr : v.required = false) :
    ∃ v', withLibrary w names v = some v' ∧ (v'.enabled = some true ↔ v.withOpt ≠ some false ∧ w.Complete names) ∧ (v'.found = true ↔ w.Complete names) ∧
      (∀ d, v'.inc = some d ↔ w.HeaderAt d) ∧ ∀ d n, v'.lib = some (d, n) ↔ w.LibraryAt names d n := by
  obtain ⟨h1, h2⟩ := hf
  unfold withLibrary findLibrary findHeader
  simp only [h1, h2, hr, Bool.false_and, Bool.false_eq_true, if_false, Option.bind_some, Option.map_some]
  have hc : ((findPath w.header (findPath w.header (findPath w.header none [w.prefixInc]) w.extraInc) w.sysInc).isSome && (names.foldl (findLib w) none).isSome) = true ↔ w.Complete names := by
    rw [Bool.and_eq_true, isSome_inc, isSome_lib]
    rfl
  refine ⟨_, rfl, ?_, hc, inc_iff w, fold_none w names⟩
  simp only [withValue, Option.some.injEq]
  rw [Bool.and_eq_true, hc]
  refine and_congr ?_ Iff.rfl
  cases v.withOpt with
  | none => simp
  | some b => cases b <;> simp

/-- A required library ends cmake exactly if something is not there; otherwise it is used, from the first place of each. -/
theorem required_library_partial (w : World) (names : List Text) (v : Var) (hf : Fresh v) :
    (requiredLibrary w names v = none ↔ ¬ w.Complete names) ∧
      ∀ v', requiredLibrary w names v = some v' → v'.enabled = some true ∧ v'.found = true ∧ (∃ d, v'.inc = some d ∧ w.HeaderAt d) ∧ ∃ d n, v'.lib = some (d, n) ∧ w.LibraryAt names d n := by
  obtain ⟨h1, h2⟩ := hf
  unfold requiredLibrary findLibrary findHeader World.Complete
  simp only [h1, h2, Bool.true_and]
  rw [← isSome_inc, ← isSome_lib]
  cases hi : findPath w.header (findPath w.header (findPath w.header none [w.prefixInc]) w.extraInc) w.sysInc with
  | none => simp
  | some d =>
    cases hl : names.foldl (findLib w) none with
    | none => simp [hl]
    | some x =>
      obtain ⟨e, n⟩ := x
      simp only [Option.isNone_some, Bool.false_eq_true, if_false, Option.bind_some, hl, Option.isSome_some, Bool.and_self, Bool.not_true, if_true]
      refine ⟨by simp, ?_⟩
      rintro v' ⟨⟩
      exact ⟨rfl, rfl, ⟨d, rfl, (inc_iff w d).mp hi⟩, e, n, rfl, (fold_none w names e n).mp hl⟩

/-- The same for headers alone. -/
theorem headers_partial (w : World) (v : Var) (hf : v.inc = none) :
    (requiredHeader w v = none ↔ ¬ ∃ d ∈ w.incPlaces, w.header d = true) ∧
      (v.required = false → ∃ v', withHeader w v = some v' ∧ (v'.enabled = some true ↔ v.withOpt ≠ some false ∧ ∃ d ∈ w.incPlaces, w.header d = true) ∧ ∀ d, v'.inc = some d ↔ w.HeaderAt d) := by
  constructor
  · unfold requiredHeader findHeader
    simp only [hf, Bool.true_and]
    rw [← isSome_inc]
    cases findPath w.header (findPath w.header (findPath w.header none [w.prefixInc]) w.extraInc) w.sysInc <;> simp
  · intro hr
    unfold withHeader findHeader
    simp only [hf, hr, Bool.false_and, Bool.false_eq_true, if_false, Option.map_some]
    refine ⟨_, rfl, ?_, inc_iff w⟩
    simp only [withValue, Option.some.injEq]
    rw [Bool.and_eq_true, isSome_inc]
    refine and_congr ?_ Iff.rfl
    cases v.withOpt with
    | none => simp
    | some b => cases b <;> simp

/-- False: that what is used is there: what was found once is taken from the cache, even if there is nothing any more. -/
theorem vanished_false (w : World) (names : List Text) (d e n : Text) : withLibrary w names { inc := some d, lib := some (e, n) } =
    some { inc := some d, lib := some (e, n), withOpt := some true, enabled := some true, found := true } := by
  unfold withLibrary findLibrary findHeader
  simp [fold_some, findPath, withValue]

/-- False: that an optional library never ends cmake: a variable required once is required from then on. -/
theorem sticky_false (w : World) (d : Text) (v : Var) (h : v.inc = some d) : ∃ v', requiredHeader w v = some v' ∧ ∀ names, v.lib = none → (¬ ∃ n ∈ names, w.Has n) → withLibrary w names v' = none := by
  unfold requiredHeader findHeader
  simp only [h, findPath, Option.isNone_some, Bool.and_false, Bool.false_eq_true, if_false]
  refine ⟨_, rfl, ?_⟩
  intro names hl hn
  rw [← isSome_lib, Bool.not_eq_true, Option.isSome_eq_false_iff, Option.isNone_iff_eq_none] at hn
  unfold withLibrary findLibrary findHeader
  simp [findPath, hl, hn]

/-- False: that the list of what is missing has each variable once: without its header, a library is in it twice. -/
theorem twice_false (w : World) (names : List Text) (h : ¬ ∃ d ∈ w.incPlaces, w.header d = true) : ∃ v, withLibrary w names {} = some v ∧ v.missing = 2 := by
  rw [← isSome_inc, Bool.not_eq_true] at h
  unfold withLibrary findLibrary findHeader
  simp only [Bool.false_and, Bool.false_eq_true, if_false, Option.bind_some, Option.map_some, h]
  refine ⟨_, rfl, ?_⟩
  rw [Option.isSome_eq_false_iff] at h
  simp [h]

/-- False: that LINTEL_FIND_LIBRARY says whether the library is to be used (documented): it does only if it is required. -/
theorem find_enabled_false (w : World) (names : List Text) (v v' : Var) (hr : v.required = false) (h : findLibrary w names v = some v') : v'.enabled = v.enabled := by
  unfold findLibrary findHeader at h
  simp only [hr, Bool.false_and, Bool.false_eq_true, if_false, Option.bind_some, Option.some.injEq] at h
  rw [← h]

/-! ### The hypotheses are met -/

def demo : World := ⟨['p'], [['x']], [['s']], fun d => d == ['x'] || d == ['s'], ['q'], [], [['t']], fun d n => (d == ['t'] && n == ['a']) || (d == ['q'] && n == ['b'])⟩

example : Fresh {} := ⟨rfl, rfl⟩

/-- The first name counts more than the installation. -/
example : requiredLibrary demo [['z'], ['a'], ['b']] {} = some { inc := some ['x'], lib := some (['t'], ['a']), required := true, enabled := some true, found := true } := by decide

example : requiredLibrary demo [['z']] {} = none := by decide

end Verif.CMakeMod.Find
