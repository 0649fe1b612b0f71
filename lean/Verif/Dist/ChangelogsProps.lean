import Verif.Dist.Changelogs

/-! # check-changelogs: is the version in the changelogs? (C262) -/

namespace Verif.Dist.Changelogs

open Verif.Deptool.Deps (Text)

/-! ## Specification -/

/-- A text like a version: the same, but for what stands in the place of the points. -/
def Like (v t : Text) : Prop := v.length = t.length ∧ ∀ (i : Nat) (a b : Char), v[i]? = some a → t[i]? = some b → a ≠ '.' → a = b

/-- A line that has such a text in it. -/
def Mentions (v line : Text) : Prop := ∃ x t y, line = x ++ t ++ y ∧ Like v t

/-- Exactly one line has it. -/
def Once (v : Text) (ls : List Text) : Prop := ∃ a l b, ls = a ++ l :: b ∧ Mentions v l ∧ ∀ x ∈ a ++ b, ¬ Mentions v x

/-- The files of a project are ready: the changelog begins with a line for the version, and the spec has one line for it. -/
def Ready (v : Text) (p : Project) : Prop := (∃ l ls, p.changelog = some (l :: ls) ∧ Mentions v l) ∧ ∃ s, p.spec = some s ∧ Once v s

/-! ## Lemmas -/

theorem fits_iff (v line : Text) : fits v line = true ↔ ∃ t y, line = t ++ y ∧ Like v t := by
  induction v generalizing line with
  | nil =>
    simp only [fits, true_iff]
    exact ⟨[], line, rfl, rfl, by simp⟩
  | cons p ps ih =>
    cases line with
    | nil =>
      simp only [fits]
      constructor
      · intro h; cases h
      · rintro ⟨t, y, e, hl, -⟩
        have := congrArg List.length e
        rw [List.length_append, ← hl] at this
        simp only [List.length_nil, List.length_cons] at this
        omega
    | cons c cs =>
      simp only [fits, Bool.and_eq_true, Bool.or_eq_true, beq_iff_eq, ih]
      constructor
      · rintro ⟨hp, t, y, rfl, hl, hi⟩
        refine ⟨c :: t, y, rfl, by simp [hl], ?_⟩
        intro i a b ha hb hn
        cases i with
        | zero =>
          cases ha
          cases hb
          rcases hp with h | h
          · exact absurd h hn
          · exact h
        | succ i => exact hi i a b ha hb hn
      · rintro ⟨t, y, e, hl, hi⟩
        cases t with
        | nil => simp at hl
        | cons d t =>
          cases e
          refine ⟨?_, t, y, rfl, by simpa using hl, fun i a b ha hb hn => hi (i + 1) a b ha hb hn⟩
          by_cases hp : p = '.'
          · exact .inl hp
          · exact .inr (hi 0 p c rfl rfl hp)

theorem grep_iff (v line : Text) : grep v line = true ↔ Mentions v line := by
  induction line with
  | nil =>
    rw [grep, fits_iff]
    constructor
    · rintro ⟨t, y, e, h⟩; exact ⟨[], t, y, e, h⟩
    · rintro ⟨x, t, y, e, h⟩
      have e := e.symm
      rw [List.append_eq_nil_iff, List.append_eq_nil_iff] at e
      exact ⟨t, y, by rw [e.1.2, e.2]; rfl, h⟩
  | cons c cs ih =>
    rw [grep, Bool.or_eq_true, fits_iff, ih]
    constructor
    · rintro (⟨t, y, e, h⟩ | ⟨x, t, y, e, h⟩)
      · exact ⟨[], t, y, e, h⟩
      · exact ⟨c :: x, t, y, by rw [e]; rfl, h⟩
    · rintro ⟨x, t, y, e, h⟩
      cases x with
      | nil => exact .inl ⟨t, y, e, h⟩
      | cons d x =>
        simp only [List.cons_append, List.cons.injEq] at e
        exact .inr ⟨x, t, y, e.2, h⟩

theorem once_iff (v : Text) (ls : List Text) : (ls.filter (grep v)).length = 1 ↔ Once v ls := by
  have hz : ∀ ls : List Text, (ls.filter (grep v)).length = 0 ↔ ∀ x ∈ ls, ¬ Mentions v x := by
    intro ls
    rw [List.length_eq_zero_iff, List.filter_eq_nil_iff]
    simp only [grep_iff]
  induction ls with
  | nil =>
    constructor
    · intro h; simp at h
    · rintro ⟨a, l, b, e, -⟩; simp at e
  | cons x ls ih =>
    by_cases hx : grep v x = true
    · rw [List.filter_cons, if_pos hx, List.length_cons]
      constructor
      · intro h
        exact ⟨[], x, ls, rfl, (grep_iff v x).mp hx, (hz ls).mp (by omega)⟩
      · rintro ⟨a, l, b, e, hl, hn⟩
        cases a with
        | nil =>
          cases e
          have := (hz ls).mpr hn
          omega
        | cons y a =>
          cases e
          exact absurd ((grep_iff v _).mp hx) (hn _ (by simp))
    · rw [List.filter_cons, if_neg hx]
      refine ih.trans ?_
      rw [grep_iff] at hx
      constructor
      · rintro ⟨a, l, b, rfl, hl, hn⟩
        refine ⟨x :: a, l, b, rfl, hl, ?_⟩
        intro y hy
        rcases List.mem_cons.mp hy with rfl | hy
        · exact hx
        · exact hn y hy
      · rintro ⟨a, l, b, e, hl, hn⟩
        cases a with
        | nil =>
          cases e
          exact absurd hl hx
        | cons y a =>
          cases e
          exact ⟨a, l, b, rfl, hl, fun z hz => hn z (by
            rw [List.cons_append]
            exact List.mem_cons_of_mem _ hz)⟩

theorem one_iff (v : Text) (p : Project) : checkOne v p = true ↔ Ready v p := by
  obtain ⟨c, s⟩ := p
  unfold Ready
  cases c with
  | none => simp [checkOne]
  | some c =>
    cases s with
    | none => simp [checkOne]
    | some s =>
      simp only [checkOne, Bool.and_eq_true, beq_iff_eq, once_iff, Option.some.injEq]
      refine and_congr ?_ ⟨fun h => ⟨s, rfl, h⟩, fun ⟨_, e, h⟩ => e ▸ h⟩
      constructor
      · rintro ⟨a, l, b, e, hl, -⟩
        cases c with
        | nil => simp at e
        | cons x c =>
          rw [List.take_succ_cons, List.take_zero] at e
          cases a with
          | nil =>
            cases e
            exact ⟨l, c, rfl, hl⟩
          | cons y a => simp at e
      · rintro ⟨l, ls, rfl, hl⟩
        exact ⟨[], l, [], rfl, hl, by simp⟩

/-! ## C262 -/

/-- The check passes exactly if the files of both projects are ready. -/
theorem check_iff (v : Text) (l d : Project) : check v l d = true ↔ Ready v l ∧ Ready v d := by
  rw [check, Bool.and_eq_true, one_iff, one_iff]

/-- With the version itself in the first line of each changelog and in one line of each spec, and nothing like it elsewhere in the specs, the check passes. -/
theorem right_passes (v x y : Text) (cl : List Text) (x' y' : Text) (a b : List Text) (h : ∀ t ∈ a ++ b, ¬ Mentions v t) :
    check v ⟨some ((x ++ v ++ y) :: cl), some (a ++ (x' ++ v ++ y') :: b)⟩ ⟨some ((x ++ v ++ y) :: cl), some (a ++ (x' ++ v ++ y') :: b)⟩ = true := by
  have hs : Like v v := ⟨rfl, fun i a b ha hb _ => by
    rw [ha] at hb
    exact Option.some.inj hb⟩
  have hr : Ready v ⟨some ((x ++ v ++ y) :: cl), some (a ++ (x' ++ v ++ y') :: b)⟩ :=
    ⟨⟨_, cl, rfl, x, v, y, rfl, hs⟩, _, rfl, a, _, b, rfl, ⟨x', v, y', rfl, hs⟩, h⟩
  exact (check_iff v _ _).mpr ⟨hr, hr⟩

/-- False: that it finds a changelog for another version: the points stand for anything, and more digits may follow. -/
theorem other_version_false : ∃ p : Project, (∀ c ∈ p.changelog, ∀ l ∈ c, ¬ ['1', '.', '2'] <:+: l) ∧ check ['1', '.', '2'] p p = true :=
  ⟨⟨some [['(', '1', '0', '2', '.', '3', ')']], some [['1', '-', '2']]⟩, by decide, by decide⟩

/-- False: that it finds a changelog for a version that this one begins. -/
theorem longer_false (v r : Text) : check v ⟨some [v ++ r], some [v ++ r]⟩ ⟨some [v ++ r], some [v ++ r]⟩ = true := by
  have := right_passes v [] r [] [] r [] [] (by simp)
  simpa using this

/-! ### The hypotheses are met -/

example : ¬ Mentions ['1', '.', '2'] ['1', '2'] := fun h => absurd ((grep_iff _ _).mpr h) (by decide)

example : Ready ['1', '.', '2'] ⟨some [['x', '1', '.', '2'], ['y']], some [['z'], ['1', '.', '2'], []]⟩ := (one_iff _ _).mp (by decide)

end Verif.Dist.Changelogs
