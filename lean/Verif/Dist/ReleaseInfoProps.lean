import Verif.Dist.ReleaseInfo

/-! # The file Release.info (C269) -/

namespace Verif.Dist.ReleaseInfo

open Verif.Deptool.Deps (Text)
open Verif.DepVC.Ctest (isSpace)

/-! ## Specification -/

/-- A line that names a date. -/
def Names (l d : Text) : Prop := l = "Creation-Date: ".toList ++ d ∧ d ≠ [] ∧ ∀ c ∈ d, isSpace c = false

/-- The date of a file: the last that is named. -/
def DateOf (ls : List Text) (d : Text) : Prop := ∃ a l b, ls = a ++ l :: b ∧ Names l d ∧ ∀ m ∈ b, ∀ e, ¬ Names m e

/-! ## Lemmas -/

theorem lineDate_iff (l d : Text) : lineDate l = some d ↔ Names l d := by
  unfold lineDate Names
  constructor
  · intro h
    split at h
    · rename_i hp
      rw [List.isPrefixOf_iff_prefix] at hp
      obtain ⟨r, rfl⟩ := hp
      simp only [List.drop_left] at h
      split at h
      · rename_i hr
        cases h
        refine ⟨rfl, hr.1, ?_⟩
        simpa using hr.2
      · cases h
    · cases h
  · rintro ⟨rfl, h1, h2⟩
    show (if dateKey.isPrefixOf (dateKey ++ d) = true then _ else none) = _
    rw [if_pos (List.isPrefixOf_iff_prefix.mpr (List.prefix_append _ _))]
    have e : List.drop dateKey.length ("Creation-Date: ".toList ++ d) = d := List.drop_left
    simp only [e]
    rw [if_pos ⟨h1, by simpa using h2⟩]

theorem lineDate_none (l : Text) : lineDate l = none ↔ ∀ d, ¬ Names l d := by
  rw [Option.eq_none_iff_forall_ne_some]
  exact forall_congr' fun d => not_congr (lineDate_iff l d)

theorem readDate_snoc (ls : List Text) (l : Text) : readDate (ls ++ [l]) = match lineDate l with | some d => some d | none => readDate ls := by
  unfold readDate
  rw [List.foldl_append]
  rfl

theorem snoc_cases (ls : List Text) : ls = [] ∨ ∃ a l, ls = a ++ [l] := by
  rcases List.eq_nil_or_concat ls with h | ⟨a, l, h⟩
  · exact .inl h
  · exact .inr ⟨a, l, by simpa using h⟩

theorem read_tail (a : List Text) (l d : Text) (hl : lineDate l = some d) (b : List Text) (hb : ∀ m ∈ b, lineDate m = none) : readDate (a ++ l :: b) = some d := by
  unfold readDate
  rw [List.foldl_append, List.foldl_cons, hl]
  simp only
  induction b with
  | nil => rfl
  | cons m b ih =>
    rw [List.foldl_cons, hb m (by simp)]
    exact ih fun x hx => hb x (by simp [hx])

theorem read_some (ls : List Text) : ∀ d, readDate ls = some d → DateOf ls d := by
  suffices h : ∀ n (ls : List Text), ls.length = n → ∀ d, readDate ls = some d → DateOf ls d from h _ ls rfl
  intro n
  induction n with
  | zero =>
    intro ls hn d h
    rw [List.length_eq_zero_iff.mp hn] at h
    cases h
  | succ n ih =>
    intro ls hn d h
    rcases snoc_cases ls with rfl | ⟨a, l, rfl⟩
    · cases hn
    · rw [readDate_snoc] at h
      cases hl : lineDate l with
      | some e =>
        rw [hl] at h
        cases h
        exact ⟨a, l, [], rfl, (lineDate_iff l d).mp hl, by simp⟩
      | none =>
        rw [hl] at h
        obtain ⟨x, m, b, rfl, h1, h2⟩ := ih a (by simpa using hn) d h
        refine ⟨x, m, b ++ [l], by simp, h1, ?_⟩
        intro y hy
        rcases List.mem_append.mp hy with hy | hy
        · exact h2 y hy
        · rw [List.mem_singleton.mp hy]
          exact (lineDate_none l).mp hl

theorem read_iff (ls : List Text) (d : Text) : readDate ls = some d ↔ DateOf ls d := by
  refine ⟨read_some ls d, ?_⟩
  rintro ⟨a, l, b, rfl, h1, h2⟩
  exact read_tail a l d ((lineDate_iff l d).mpr h1) b fun m hm => (lineDate_none m).mpr (h2 m hm)

/-! ## C269 -/

/-- In a repository, the script always ends well; both files say what git says now, and one that already said so keeps its time. -/
theorem release_git (g : Git) (date : Text) (now : Nat) (d : Dir) : ∃ i l, release (some g) date now d = some ⟨some i, some l⟩ ∧
    i.lines = ["Git-Revision: ".toList ++ g.rev, "Creation-Date: ".toList ++ date, "BEGIN_EXTRA_STATUS".toList] ++ g.status ++ ["END_EXTRA_STATUS".toList] ∧ l.lines = g.log ∧
    (∀ o, d.log = some o → o.lines = g.log → l = o) ∧ ((∀ o, d.log = some o → o.lines ≠ g.log) → l.time = now) := by
  have hu : ∀ new (old : Option File), ∃ f, update now new old = some f ∧ f.lines = new ∧ (∀ o, old = some o → o.lines = new → f = o) ∧ ((∀ o, old = some o → o.lines ≠ new) → f.time = now) := by
    intro new old
    cases old with
    | none => exact ⟨⟨new, now⟩, rfl, rfl, (by intro o h; cases h), fun _ => rfl⟩
    | some f =>
      by_cases h : f.lines = new
      · refine ⟨f, if_pos h, h, ?_, fun hn => absurd h (hn f rfl)⟩
        intro o ho _
        cases ho
        rfl
      · refine ⟨⟨new, now⟩, if_neg h, rfl, ?_, fun _ => rfl⟩
        intro o ho ho'
        cases ho
        exact absurd ho' h
  obtain ⟨i, h1, h2, _, _⟩ := hu (infoLines g date) d.info
  obtain ⟨l, h4, h5, h6, h7⟩ := hu g.log d.log
  refine ⟨i, l, ?_, h2, h5, h6, h7⟩
  unfold release
  simp only [h1, h4]
  rfl

/-- Elsewhere, it ends well exactly if both files are there, and leaves them. -/
theorem release_tar (date : Text) (now : Nat) (d : Dir) :
    (d.info ≠ none ∧ d.log ≠ none → release none date now d = some d) ∧ (d.info = none ∨ d.log = none → release none date now d = none) := by
  obtain ⟨i, l⟩ := d
  unfold release
  cases i <;> cases l <;> simp

/-- The date that is read from what the script wrote is the date that it wrote, unless the status of git has a line like it. -/
theorem date_read (g : Git) (date : Text) (hd : date ≠ []) (hs : ∀ c ∈ date, isSpace c = false) (hg : ∀ m ∈ g.status, ∀ e, ¬ Names m e) : readDate (infoLines g date) = some date := by
  rw [read_iff]
  refine ⟨[revKey ++ g.rev], dateKey ++ date, beginKey :: g.status ++ [endKey], rfl, ⟨rfl, hd, hs⟩, ?_⟩
  intro m hm
  rcases List.mem_append.mp hm with h | h
  · rcases List.mem_cons.mp h with rfl | h
    · rw [← lineDate_none]; decide
    · exact hg m h
  · rw [List.mem_singleton.mp h, ← lineDate_none]; decide

/-- A project is taken to be the same exactly if its Release.info has the date; it is left alone only then, or if it is not there. -/
theorem old_project (project : Option (Option (List Text))) (date : Text) :
    (oldProject project date = .same ↔ ∃ ls, project = some (some ls) ∧ DateOf ls date) ∧ (oldProject project date = .nothingThere ↔ project = none) := by
  match project with
  | none => simp [oldProject]
  | some none => simp [oldProject]
  | some (some ls) =>
    unfold oldProject
    simp only [Option.some.injEq, exists_eq_left', reduceCtorEq, iff_false]
    rw [← read_iff]
    cases readDate ls with
    | none => simp
    | some e =>
      by_cases h : e = date
      · simp [h]
      · simp [h]

/-- False: that a release made by the script is recognized: its date has hours and minutes (sixteen characters), that of a tar file has not (ten). -/
theorem recognized_false (g : Git) (date tarDate : Text) (h16 : date.length = 16) (h10 : tarDate.length = 10) (hs : ∀ c ∈ date, isSpace c = false) (hg : ∀ m ∈ g.status, ∀ e, ¬ Names m e) :
    oldProject (some (some (infoLines g date))) tarDate = .backup := by
  have hd : date ≠ [] := by
    intro h
    rw [h] at h16
    cases h16
  unfold oldProject
  simp only [date_read g date hd hs hg]
  rw [if_pos]
  intro h
  rw [h, h10] at h16
  cases h16

/-! ### The hypotheses are met -/

example : readDate (infoLines ⟨['r'], [['x']], []⟩ "2026-01-02-03-04".toList) = some "2026-01-02-03-04".toList := by decide

example : ∀ m ∈ (⟨['r'], [['x']], []⟩ : Git).status, ∀ e, ¬ Names m e := by
  intro m hm
  rw [List.mem_singleton.mp hm, ← lineDate_none]
  decide

end Verif.Dist.ReleaseInfo
