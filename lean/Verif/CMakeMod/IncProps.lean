import Verif.CMakeMod.Inc

/-! # Where the installed programs look for perl modules (C263) -/

namespace Verif.CMakeMod.Inc

open Verif.Deptool.Deps (Text)
open Verif.DepVC.Ctest (isSpace)

/-! ## Specification -/

def NoBlank (t : Text) : Prop := ∀ c ∈ t, isSpace c = false

def share (pre : Text) : Text := pre ++ "/share/perl5".toList
def lib (pre : Text) : Text := pre ++ "/lib/perl5".toList

/-! ## Lemmas -/

theorem qw_solid (w a t : Text) (h : NoBlank a) : qw w (a ++ t) = qw (w ++ a) t := by
  induction a generalizing w with
  | nil => rw [List.nil_append, List.append_nil]
  | cons c a ih =>
    rw [List.cons_append, qw, h c (by simp), if_neg (by simp), ih _ fun x hx => h x (by simp [hx])]
    simp

theorem noBlank_append {a b : Text} (ha : NoBlank a) (hb : NoBlank b) : NoBlank (a ++ b) := fun c hc => by
  rcases List.mem_append.mp hc with h | h
  · exact ha c h
  · exact hb c h

theorem nb_share : NoBlank "/share/perl5".toList := by unfold NoBlank; decide
theorem nb_lib : NoBlank "/lib/perl5".toList := by unfold NoBlank; decide

theorem ends_ne (pre s : Text) (h : s ≠ []) : (pre ++ s).isEmpty = false := by
  cases pre <;> cases s <;> simp_all

theorem dirs_eq (pre : Text) (h : NoBlank pre) : dirs pre = [share pre, lib pre] := by
  have h1 : ("/share/perl5".toList : Text) ≠ [] := by decide
  have h2 : ("/lib/perl5".toList : Text) ≠ [] := by decide
  unfold dirs share lib
  rw [← List.append_assoc]
  rw [qw_solid [] _ _ (noBlank_append h nb_share), List.nil_append]
  generalize ("/share/perl5".toList : Text) = s at h1
  have nl := nb_lib
  generalize ("/lib/perl5".toList : Text) = l at h2 nl
  have e : qw [] (pre ++ l) = [pre ++ l] := by
    have := qw_solid [] (pre ++ l) [] (noBlank_append h nl)
    rw [List.append_nil, List.nil_append] at this
    rw [this, qw, ends_ne pre l h2]
    rfl
  rw [qw, if_pos (by decide), ends_ne pre s h1, e]
  rfl

theorem share_ne_lib (pre : Text) : lib pre ≠ share pre := by
  unfold lib share
  intro h
  have := List.append_cancel_left h
  revert this
  decide

theorem addAll_suffix (ds inc : List Text) : ∃ new, addAll ds inc = new ++ inc ∧ (∀ d ∈ new, d ∈ ds ∧ d ∉ inc) ∧ (∀ d ∈ ds, d ∈ new ++ inc) ∧ new.Nodup := by
  induction ds generalizing inc with
  | nil => exact ⟨[], rfl, by simp, by simp, List.nodup_nil⟩
  | cons d ds ih =>
    rw [addAll]
    by_cases hd : d ∈ inc
    · rw [if_pos (by simpa using hd)]
      obtain ⟨new, h1, h2, h3, h4⟩ := ih inc
      refine ⟨new, h1, fun x hx => ⟨by simp [(h2 x hx).1], (h2 x hx).2⟩, ?_, h4⟩
      intro x hx
      rcases List.mem_cons.mp hx with rfl | hx
      · simp [hd]
      · exact h3 x hx
    · rw [if_neg (by simpa using hd)]
      obtain ⟨new, h1, h2, h3, h4⟩ := ih (d :: inc)
      refine ⟨new ++ [d], by rw [h1]; simp, ?_, ?_, ?_⟩
      · intro x hx
        rcases List.mem_append.mp hx with h | h
        · exact ⟨by simp [(h2 x h).1], fun hi => (h2 x h).2 (by simp [hi])⟩
        · rw [List.mem_singleton] at h
          subst h
          exact ⟨by simp, hd⟩
      · intro x hx
        rcases List.mem_cons.mp hx with rfl | hx
        · simp
        · have := h3 x hx
          simpa using this
      · rw [List.nodup_append]
        refine ⟨h4, by simp, ?_⟩
        intro x hx y hy e
        rw [List.mem_singleton] at hy
        subst hy
        subst e
        exact (h2 x hx).2 (by simp)

/-! ## C263 -/

/-- The old places stay, in their order and behind the new ones; the two directories are there afterwards, and nothing else is new or twice. -/
theorem setup_places_partial (pre : Text) (inc : List Text) (h : NoBlank pre) :
    ∃ new, setup pre inc = new ++ inc ∧ (∀ d, d ∈ new ↔ (d = share pre ∨ d = lib pre) ∧ d ∉ inc) ∧ new.Nodup := by
  obtain ⟨new, h1, h2, h3, h4⟩ := addAll_suffix (dirs pre) inc
  rw [dirs_eq pre h] at h2 h3
  refine ⟨new, h1, fun d => ⟨fun hd => ⟨by simpa using (h2 d hd).1, (h2 d hd).2⟩, ?_⟩, h4⟩
  rintro ⟨hd, hn⟩
  have := h3 d (by simpa using hd)
  rcases List.mem_append.mp this with h | h
  · exact h
  · exact absurd h hn

/-- What is installed with the program comes before all else, the part for the machine first, if the directories were not there before. -/
theorem installed_first_partial (pre : Text) (inc : List Text) (has : Text → Bool) (h : NoBlank pre) (hs : share pre ∉ inc) (hl : lib pre ∉ inc) :
    find has (setup pre inc) = if has (lib pre) then some (lib pre) else if has (share pre) then some (share pre) else find has inc := by
  have e : setup pre inc = lib pre :: share pre :: inc := by
    unfold setup
    rw [dirs_eq pre h, addAll, if_neg (by simpa using hs), addAll, if_neg, addAll]
    simpa using ⟨share_ne_lib pre, hl⟩
  rw [e]
  unfold find
  rw [List.find?_cons, List.find?_cons]
  cases has (lib pre) <;> cases has (share pre) <;> rfl

/-- Nothing that was found before is lost, whatever the prefix. -/
theorem still_found (pre : Text) (inc : List Text) (has : Text → Bool) (h : (find has inc).isSome = true) : (find has (setup pre inc)).isSome = true := by
  obtain ⟨new, h1, -, -⟩ := addAll_suffix (dirs pre) inc
  unfold find setup at *
  rw [h1, List.find?_append]
  cases new.find? has with
  | some x => rfl
  | none => exact h

/-- Doing it again changes nothing. -/
theorem setup_again (pre : Text) (inc : List Text) (h : NoBlank pre) : setup pre (setup pre inc) = setup pre inc := by
  obtain ⟨new, h1, h2, -⟩ := setup_places_partial pre inc h
  obtain ⟨new', h1', h2', -⟩ := setup_places_partial pre (setup pre inc) h
  have : new' = [] := by
    rw [List.eq_nil_iff_forall_not_mem]
    intro d hd
    obtain ⟨a, b⟩ := (h2' d).mp hd
    apply b
    rw [h1]
    by_cases hi : d ∈ inc
    · simp [hi]
    · exact List.mem_append_left _ ((h2 d).mpr ⟨a, hi⟩)
  rw [h1', this, List.nil_append]

/-- False: that what is installed always comes first: if the directories are places of perl already, they stay where they are, behind others. -/
theorem precedence_false (pre other : Text) (h : NoBlank pre) : find (fun _ => true) (setup pre [other, lib pre, share pre]) = some other := by
  unfold setup find
  rw [dirs_eq pre h, addAll, if_pos (by simp), addAll, if_pos (by simp), addAll]
  rfl

/-- False: that the prefix may have a blank in it: its parts become directories, from which modules are loaded first. -/
theorem blank_false : setup "/a b".toList [] = ["b/lib/perl5".toList, "b/share/perl5".toList, "/a".toList] := by decide

/-! ### The hypotheses are met -/

example : NoBlank "/usr/local".toList := by unfold NoBlank; decide

example : setup ['/', 'u'] [['x']] = [['/', 'u'] ++ "/lib/perl5".toList, ['/', 'u'] ++ "/share/perl5".toList, ['x']] := by decide

end Verif.CMakeMod.Inc
