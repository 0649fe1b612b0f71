import Verif.CMakeMod.BoostExtra
import Verif.CMakeMod.FindProps

/-! # The macro for the libraries of boost (C266) -/

namespace Verif.CMakeMod.BoostExtra

open Verif.Deptool.Deps (Text)
open Verif.CMakeMod.Find (World Var Fresh)

/-! ## Specification -/

/-- The places: those of boost are added. -/
def among (w : World) (b : Boost) : World := ⟨w.prefixInc, b.incDirs, w.sysInc, w.header, w.prefixLib, b.libDirs, w.sysLib, w.library⟩

/-- The directory of the libraries of boost: what FindBoost says, or, if it says `/usr/lib`, one of two others in which boost is. -/
inductive LibDir (b : Boost) : Text → Prop
  | said {d} (h : b.libDirs = [d]) : LibDir b d
  | lib64 (h : b.libDirs = ["/usr/lib".toList]) (e : b.has64 = true) : LibDir b "/usr/lib64".toList
  | gnu (h : b.libDirs = ["/usr/lib".toList]) (e : b.hasGnu = true) : LibDir b "/usr/lib/x86_64-linux-gnu".toList

/-- Header and library come from the boost that was found. -/
def Agree (w : World) (b : Boost) (names : List Text) : Prop := ∃ i d n, (among w b).HeaderAt i ∧ (among w b).LibraryAt names d n ∧ b.incDirs = [i] ∧ LibDir b d

/-! ## Lemmas -/

theorem correct_iff (b : Boost) (d : Text) : ([d] == correct b d) = true ↔ LibDir b d := by
  rw [beq_iff_eq]
  unfold correct
  constructor
  · intro h
    split at h
    · rename_i hc
      rw [Bool.and_eq_true, Bool.and_eq_true, beq_iff_eq, beq_iff_eq] at hc
      obtain ⟨⟨h1, h2⟩, rfl⟩ := hc
      exact .lib64 h1 h2
    · split at h
      · rename_i hc
        rw [Bool.and_eq_true, Bool.and_eq_true, beq_iff_eq, beq_iff_eq] at hc
        obtain ⟨⟨h1, h2⟩, rfl⟩ := hc
        exact .gnu h1 h2
      · exact .said h.symm
  · intro h
    have e1 : (usrLib == usrLib64) = false := by decide
    have e2 : (usrLib == usrGnu) = false := by decide
    have e3 : (usrGnu == usrLib64) = false := by decide
    cases h with
    | said h =>
      split
      · rename_i hc
        rw [Bool.and_eq_true, beq_iff_eq] at hc
        rw [hc.2]
      · split
        · rename_i hc
          rw [Bool.and_eq_true, beq_iff_eq] at hc
          rw [hc.2]
        · exact h.symm
    | lib64 h e =>
      have hl : b.libDirs = [usrLib] := h
      rw [if_pos]
      · rfl
      · rw [hl, e]; decide
    | gnu h e =>
      have hl : b.libDirs = [usrLib] := h
      rw [if_neg, if_pos]
      · rfl
      · rw [hl, e]; decide
      · rw [hl]
        have : (("/usr/lib/x86_64-linux-gnu".toList : Text) == usrLib64) = false := e3
        rw [this, Bool.and_false]
        exact Bool.false_ne_true

theorem sameInc_iff (b : Boost) (v : Var) (i : Text) (h : v.inc = some i) : sameInc b v = true ↔ b.incDirs = [i] := by
  unfold sameInc
  rw [h, beq_iff_eq]
  exact eq_comm

/-- The check after all was found. -/
def check (b : Boost) (v : Var) : Option (Var × Boost) :=
  if v.enabled = some true then
    if sameInc b v then
      if [(v.lib.map (·.1)).getD []] == correct b ((v.lib.map (·.1)).getD []) then some (v, { b with libDirs := correct b ((v.lib.map (·.1)).getD []) }) else none
    else none
  else some (v, b)

theorem check_on (b : Boost) (v : Var) (i d n : Text) (he : v.enabled = some true) (hi : v.inc = some i) (hl : v.lib = some (d, n)) :
    (b.incDirs = [i] ∧ LibDir b d → check b v = some (v, { b with libDirs := [d] })) ∧ (¬ (b.incDirs = [i] ∧ LibDir b d) → check b v = none) := by
  unfold check
  rw [if_pos he, hl]
  simp only [Option.map_some, Option.getD_some]
  constructor
  · rintro ⟨h1, h2⟩
    rw [if_pos ((sameInc_iff b v i hi).mpr h1), if_pos ((correct_iff b d).mpr h2)]
    have := (correct_iff b d).mpr h2
    rw [beq_iff_eq] at this
    rw [← this]
  · intro h
    split
    · rename_i h1
      split
      · rename_i h2
        exact absurd ⟨(sameInc_iff b v i hi).mp h1, (correct_iff b d).mp h2⟩ h
      · rfl
    · rfl

theorem first_holds {P : Text → Prop} {ds : List Text} {x : Text} (h : Find.FirstAt P ds x) : P x := by
  induction h with
  | here h => exact h
  | later _ _ ih => exact ih

theorem first_unique {P : Text → Prop} {ds : List Text} {x y : Text} (hx : Find.FirstAt P ds x) (hy : Find.FirstAt P ds y) : x = y := by
  induction hx with
  | here h =>
    cases hy with
    | here _ => rfl
    | later hn _ => exact absurd h hn
  | later hn _ ih =>
    cases hy with
    | here h => exact absurd h hn
    | later _ hs => exact ih hs

/-! ## C266 -/

/-- In a new build directory, an optional library of boost that is turned off or not there is not used. Otherwise it is used if header and library come from the boost that was found, and else cmake ends. -/
theorem boost_optional_partial (w : World) (b : Boost) (names : List Text) (v : Var) (hf : Fresh v) (hr : v.required = false) :
    (¬ (v.withOpt ≠ some false ∧ (among w b).Complete names) → ∃ v', boostLibrary w b names v = some (v', b) ∧ v'.enabled ≠ some true) ∧
    (v.withOpt ≠ some false ∧ (among w b).Complete names → Agree w b names → ∃ v' i d n, boostLibrary w b names v = some (v', { b with libDirs := [d] }) ∧ v'.enabled = some true ∧
      v'.inc = some i ∧ v'.lib = some (d, n) ∧ b.incDirs = [i] ∧ LibDir b d) ∧
    (v.withOpt ≠ some false ∧ (among w b).Complete names → ¬ Agree w b names → boostLibrary w b names v = none) := by
  obtain ⟨v', h, he, hc, hi, hl⟩ := Find.with_library_partial (among w b) names v hf hr
  have e : boostLibrary w b names v = check b v' := by
    unfold boostLibrary
    rw [hr]
    show (Find.withLibrary (among w b) names v).bind (check b) = _
    rw [h]
    rfl
  rw [e]
  refine ⟨?_, ?_, ?_⟩
  · intro hn
    have : ¬ v'.enabled = some true := fun h => hn (he.mp h)
    refine ⟨v', ?_, this⟩
    unfold check
    rw [if_neg this]
  · rintro hy ⟨i, d, n, a1, a2, a3, a4⟩
    exact ⟨v', i, d, n, (check_on b v' i d n (he.mpr hy) ((hi i).mpr a1) ((hl d n).mpr a2)).1 ⟨a3, a4⟩, he.mpr hy, (hi i).mpr a1, (hl d n).mpr a2, a3, a4⟩
  · intro hy hn
    obtain ⟨h1, n0, h2⟩ := hy.2
    obtain ⟨i, hi'⟩ := (Find.first_exists _ _).mpr h1
    obtain ⟨n, hn'⟩ := (Find.first_exists _ _).mpr ⟨n0, h2⟩
    have hHas : (among w b).Has n := first_holds hn'
    obtain ⟨d, hd'⟩ := (Find.first_exists _ _).mpr hHas
    exact (check_on b v' i d n (he.mpr hy) ((hi i).mpr hi') ((hl d n).mpr ⟨hn', hd'⟩)).2 fun ⟨a3, a4⟩ => hn ⟨i, d, n, hi', ⟨hn', hd'⟩, a3, a4⟩

/-- In a new build directory, a required library of boost is used if it is there and comes with its header from the boost that was found; otherwise cmake ends. -/
theorem boost_required_partial (w : World) (b : Boost) (names : List Text) (v : Var) (hf : Fresh v) (hr : v.required = true) :
    ((among w b).Complete names ∧ Agree w b names → ∃ v' i d n, boostLibrary w b names v = some (v', { b with libDirs := [d] }) ∧ v'.enabled = some true ∧
      v'.inc = some i ∧ v'.lib = some (d, n) ∧ b.incDirs = [i] ∧ LibDir b d) ∧
    (¬ ((among w b).Complete names ∧ Agree w b names) → boostLibrary w b names v = none) := by
  have hv : { v with required := true } = v := by
    cases v
    cases hr
    rfl
  obtain ⟨h1, h2⟩ := Find.required_library_partial (among w b) names v hf
  unfold Find.requiredLibrary at h1 h2
  rw [hv] at h1 h2
  have e : boostLibrary w b names v = (Find.findLibrary (among w b) names v).bind (check b) := by
    unfold boostLibrary
    rw [hr]
    rfl
  rw [e]
  cases hl : Find.findLibrary (among w b) names v with
  | none =>
    have hn := h1.mp hl
    exact ⟨fun h => absurd h.1 hn, fun _ => rfl⟩
  | some v' =>
    have hc : (among w b).Complete names := Classical.not_not.mp fun h => by rw [h1.mpr h] at hl; cases hl
    obtain ⟨he, _, ⟨i, hi, hi'⟩, d, n, hl1, hl2⟩ := h2 v' hl
    rw [Option.bind_some]
    have hk := check_on b v' i d n he hi hl1
    have hu : Agree w b names → b.incDirs = [i] ∧ LibDir b d := by
      rintro ⟨i2, d2, n2, a1, a2, a3, a4⟩
      have ei : i2 = i := first_unique a1 hi'
      have en : n2 = n := first_unique a2.1 hl2.1
      subst ei en
      have ed : d2 = d := first_unique a2.2 hl2.2
      subst ed
      exact ⟨a3, a4⟩
    constructor
    · rintro ⟨_, ha⟩
      exact ⟨v', i, d, n, hk.1 (hu ha), he, hi, hl1, (hu ha).1, (hu ha).2⟩
    · intro hn
      exact hk.2 fun ⟨a3, a4⟩ => hn ⟨hc, i, d, n, hi', hl2, a3, a4⟩

/-- In any build directory: if cmake goes on with the library, the include directory is that of the boost that was found and so is the one of the library. -/
theorem boost_agrees (w : World) (b b' : Boost) (names : List Text) (v v' : Var) (h : boostLibrary w b names v = some (v', b')) (he : v'.enabled = some true) :
    v'.inc.toList = b.incDirs ∧ ∃ d, b'.libDirs = [d] ∧ LibDir b d ∧ ∀ e n, v'.lib = some (e, n) → e = d := by
  unfold boostLibrary at h
  simp only at h
  rw [Option.bind_eq_some_iff] at h
  obtain ⟨u, -, h⟩ := h
  change check b u = _ at h
  unfold check at h
  by_cases hu : u.enabled = some true
  · rw [if_pos hu] at h
    split at h
    · rename_i hs
      split at h
      · rename_i hc
        cases h
        constructor
        · unfold sameInc at hs
          exact beq_iff_eq.mp hs
        · refine ⟨_, (beq_iff_eq.mp hc).symm, (correct_iff b _).mp hc, ?_⟩
          intro e n hl
          rw [hl]
          rfl
      · cases h
    · cases h
  · rw [if_neg hu] at h
    cases h
    exact absurd he hu

/-- What has no library: only the include directory is compared. -/
theorem boost_header_agrees (w : World) (b : Boost) (v v' : Var) (h : boostHeader w b v = some v') (he : v'.enabled = some true) : v'.inc.toList = b.incDirs := by
  unfold boostHeader at h
  simp only at h
  rw [Option.bind_eq_some_iff] at h
  obtain ⟨u, -, h⟩ := h
  by_cases hu : u.enabled = some true
  · rw [if_pos hu] at h
    split at h
    · rename_i hs
      cases h
      exact beq_iff_eq.mp hs
    · cases h
  · rw [if_neg hu] at h
    cases h
    exact absurd he hu

/-- An optional library in which the installation has a header of its own, apart from that of boost. -/
def apart : World := ⟨['p'], [], [], fun d => d == ['p'] || d == ['b'], ['q'], [], [], fun d _ => d == ['l']⟩

def boostB : Boost := ⟨[['b']], [['l']], false, false⟩

/-- False: that something optional never ends cmake. -/
theorem optional_ends_false : boostLibrary apart boostB [['n']] {} = none := by decide

/-! ### The hypotheses are met -/

def good : World := ⟨['p'], [], [], fun d => d == ['b'], ['q'], [], [], fun d _ => d == ['l']⟩

example : boostLibrary good boostB [['n']] {} = some ({ inc := some ['b'], lib := some (['l'], ['n']), withOpt := some true, enabled := some true, found := true }, boostB) := by decide

example : LibDir ⟨[], ["/usr/lib".toList], true, false⟩ "/usr/lib64".toList := .lib64 rfl rfl

end Verif.CMakeMod.BoostExtra
