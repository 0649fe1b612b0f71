import Verif.CMakeMod.PathFix

/-! # The paths in the documentation made by doxygen (C268) -/

namespace Verif.CMakeMod.PathFix

open Verif.Deptool.Deps (Text)

/-! ## Specification -/

/-- Each `pat` from the left has become `rep`, and nothing else has changed. -/
inductive Replaced (pat rep : Text) : Text → Text → Prop
  | nil : Replaced pat rep [] []
  | hit {t u} (h : Replaced pat rep t u) : Replaced pat rep (pat ++ t) (rep ++ u)
  | miss {c t u} (hn : ¬ pat <+: c :: t) (h : Replaced pat rep t u) : Replaced pat rep (c :: t) (c :: u)

/-! ## Lemmas -/

theorem words_flatten (t : Text) : (words t).flatten = t.filter (· ≠ ';') := by
  induction t with
  | nil => rfl
  | cons c t ih =>
    rw [words]
    by_cases h : c = ';'
    · rw [if_pos h, h]
      simpa using ih
    · rw [if_neg h, List.filter_cons, if_pos (by simp [h]), ← ih]
      cases words t <;> simp

theorem filter_flatten (ws : List Text) : (ws.filter (· ≠ [])).flatten = ws.flatten := by
  induction ws with
  | nil => rfl
  | cons w ws ih =>
    rw [List.filter_cons]
    cases w with
    | nil => simpa using ih
    | cons c w => simpa using ih

theorem args_flatten (t : Text) : (args t).flatten = t.filter (· ≠ ';') := by
  rw [args, filter_flatten, words_flatten]

theorem args_nil (t : Text) : args t = [] ↔ ∀ c ∈ t, c = ';' := by
  constructor
  · intro h
    have := args_flatten t
    rw [h, List.flatten_nil] at this
    intro c hc
    have hf := List.filter_eq_nil_iff.mp this.symm c hc
    simpa using hf
  · intro h
    have e : (args t).flatten = [] := by
      rw [args_flatten, List.filter_eq_nil_iff]
      intro c hc
      simp [h c hc]
    cases ha : args t with
    | nil => rfl
    | cons w ws =>
      have hw : w ∈ args t := by rw [ha]; simp
      unfold args at hw
      rw [List.mem_filter] at hw
      rw [ha, List.flatten_cons, List.append_eq_nil_iff] at e
      simp [e.1] at hw

theorem setVar_filter (ws : List Text) : (setVar ws).filter (· ≠ ';') = ws.flatten.filter (· ≠ ';') := by
  unfold setVar
  match ws with
  | [] => rfl
  | [w] => simp
  | w :: x :: ws =>
    have ih := setVar_filter (x :: ws)
    unfold setVar at ih
    simp only [List.intersperse_cons_cons, List.flatten_cons, List.filter_append] at ih ⊢
    rw [ih]
    simp

theorem replace_spec (pat rep : Text) (hp : pat ≠ []) (t : Text) : Replaced pat rep t (replaceAll pat rep t) := by
  match t with
  | [] => rw [replaceAll]; exact .nil
  | c :: t =>
    rw [replaceAll]
    by_cases h : pat.isPrefixOf (c :: t) = true
    · rw [if_pos ⟨hp, h⟩]
      rw [List.isPrefixOf_iff_prefix] at h
      obtain ⟨r, hr⟩ := h
      have e : t.drop (pat.length - 1) = r := by
        cases pat with
        | nil => exact absurd rfl hp
        | cons a pat =>
          cases hr
          simp
      rw [e, ← hr]
      have : r.length < (c :: t).length := by
        have := congrArg List.length hr
        have := List.length_pos_iff.mpr hp
        simp only [List.length_append, List.length_cons] at *
        omega
      exact .hit (replace_spec pat rep hp r)
    · rw [if_neg fun h' => h h'.2]
      exact .miss (fun h' => h (List.isPrefixOf_iff_prefix.mpr h')) (replace_spec pat rep hp t)
termination_by t.length

theorem replaced_mem (pat rep : Text) (t u : Text) (h : Replaced pat rep t u) (c : Char) (hc : c ∈ u) : c ∈ t ∨ c ∈ rep := by
  induction h with
  | nil => cases hc
  | hit _ ih =>
    rcases List.mem_append.mp hc with h | h
    · exact .inr h
    · exact (ih h).imp_left fun h => List.mem_append_right _ h
  | miss _ _ ih =>
    rcases List.mem_cons.mp hc with rfl | h
    · exact .inl (by simp)
    · exact (ih h).imp_left fun h => List.mem_cons_of_mem _ h

theorem filter_all (t : Text) (h : ';' ∉ t) : t.filter (· ≠ ';') = t := by
  rw [List.filter_eq_self]
  intro c hc
  have : c ≠ ';' := fun e => h (e ▸ hc)
  simp [this]

theorem replaced_same (pat rep : Text) (t u : Text) (h : Replaced pat rep t u) (hn : ¬ pat <:+: t) : u = t := by
  induction h with
  | nil => rfl
  | hit _ _ => exact absurd ⟨[], _, by simp; rfl⟩ hn
  | @miss c t u _ _ ih => rw [ih fun ⟨a, b, e⟩ => hn ⟨c :: a, b, by simp [← e]⟩]

/-! ## C268 -/

/-- False: that only paths change: all semicolons are lost, besides the paths of the source. -/
theorem semicolons_false (home build to d : Text) (hh : home ≠ []) (ht : ';' ∉ to) (hd : ∃ c ∈ d, c ≠ ';') :
    ∃ d', fixFile home build to d = some d' ∧ Replaced home to (d.filter (· ≠ ';')) d' ∧ ';' ∉ d' := by
  have ef : (args (setVar (args d))).flatten = d.filter (· ≠ ';') := by
    rw [args_flatten, setVar_filter, args_flatten, List.filter_filter]
    simp
  have hne : args (setVar (args d)) ≠ [] := by
    intro h
    rw [h, List.flatten_nil] at ef
    obtain ⟨c, hc, hn⟩ := hd
    have := List.filter_eq_nil_iff.mp ef.symm c hc
    simp [hn] at this
  have hr := replace_spec home to hh (d.filter (· ≠ ';'))
  have hs : ';' ∉ replaceAll home to (d.filter (· ≠ ';')) := by
    intro h
    rcases replaced_mem _ _ _ _ hr ';' h with h | h
    · simp at h
    · exact ht h
  refine ⟨replaceAll home to (d.filter (· ≠ ';')), ?_, hr, hs⟩
  have e1 : replaceEach to (setVar (args d)) (passed [home, build]) = some (replaceAll home to (d.filter (· ≠ ';'))) := by
    show (replaceArg home to (setVar (args d))).bind _ = _
    unfold replaceArg
    rw [if_neg hne, ef]
    rfl
  unfold fixFile fixData
  rw [e1, Option.map_some]
  split
  · rename_i h
    exact congrArg some h
  · rw [args_flatten, filter_all _ hs]

/-- A file without semicolons that is not empty: each path of the source becomes one of the installation, and nothing else changes. -/
theorem fix_partial (home build to d : Text) (hh : home ≠ []) (ht : ';' ∉ to) (hd : d ≠ []) (hs : ';' ∉ d) :
    ∃ d', fixFile home build to d = some d' ∧ Replaced home to d d' := by
  have hx : ∃ c ∈ d, c ≠ ';' := by
    cases d with
    | nil => exact absurd rfl hd
    | cons c t => exact ⟨c, by simp, fun e => hs (e ▸ by simp)⟩
  obtain ⟨d', h1, h2, _⟩ := semicolons_false home build to d hh ht hx
  rw [filter_all d hs] at h2
  exact ⟨d', h1, h2⟩

/-- False: that paths of the build directory are changed too: a file that does not name the source stays as it is, whatever it says of the build. -/
theorem build_false (home build to d : Text) (hh : home ≠ []) (ht : ';' ∉ to) (hd : d ≠ []) (hs : ';' ∉ d) (hn : ¬ home <:+: d) :
    fixFile home build to d = some d := by
  obtain ⟨d', h1, h2⟩ := fix_partial home build to d hh ht hd hs
  rw [h1, replaced_same home to d d' h2 hn]

/-- False: that a file that is empty, or has semicolons only, is left alone: cmake ends. -/
theorem empty_false (home build to d : Text) (h : ∀ c ∈ d, c = ';') : fixFile home build to d = none := by
  have e : args d = [] := (args_nil d).mpr h
  unfold fixFile fixData
  rw [e]
  rfl

/-! ### The hypotheses are met -/

example : fixFile ['s'] ['b'] ['i'] ['x', 's', 'b', 's'] = some ['x', 'i', 'b', 'i'] := by decide +kernel

example : fixFile ['s'] ['b'] ['i'] "a&lt;b".toList = some "a&ltb".toList := by decide +kernel

end Verif.CMakeMod.PathFix
