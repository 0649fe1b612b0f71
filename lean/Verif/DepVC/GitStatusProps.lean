import Verif.DepVC.GitStatus

/-! # deptool: what git says about the work directory (C247) -/

namespace Verif.DepVC.GitStatus

open Verif.Deptool.Deps (Text)

/-! ## Specification: the format of git -/

/-- An entry: a file git does not know, or one that was changed, with two letters for the change; a renamed or copied file comes with the name it had. -/
inductive Entry where
  | unknown (name : Text)
  | changed (x y : Char) (name : Text) (source : Option Text)
deriving DecidableEq, Repr

/-- `git status --porcelain -z`: every name ends with a zero, nothing is quoted. -/
def Entry.show : Entry → Text
  | .unknown n => ['?', '?', ' '] ++ n ++ ['\x00']
  | .changed x y n none => [x, y, ' '] ++ n ++ ['\x00']
  | .changed x y n (some s) => [x, y, ' '] ++ n ++ ['\x00'] ++ s ++ ['\x00']

/-- A name: not empty, without zeros. -/
def IsName (n : Text) : Prop := n ≠ [] ∧ '\x00' ∉ n

/-- Git uses question marks only for files it does not know. -/
def Entry.Good : Entry → Prop
  | .unknown n => IsName n
  | .changed x y n s => x ≠ '?' ∧ x ≠ '\x00' ∧ y ≠ '\x00' ∧ IsName n ∧ ∀ m, s = some m → IsName m

/-- The names of the files git does not know. -/
def unknowns (es : List Entry) : List Text := es.filterMap fun | .unknown n => some n | .changed .. => none

/-- No file was renamed that had a name with two question marks and a space at the beginning. -/
def Entry.Plain : Entry → Prop
  | .unknown _ => True
  | .changed _ _ _ s => ∀ m, s ≠ some (['?', '?', ' '] ++ m)

/-! ## Lemmas -/

theorem fields_ne (t : Text) : fields t ≠ [] := by
  cases t with
  | nil => simp [fields]
  | cons c t =>
    unfold fields
    split
    · simp
    · split <;> simp

theorem fields_append (a t : Text) (h : '\x00' ∉ a) : fields (a ++ '\x00' :: t) = a :: fields t := by
  induction a with
  | nil => simp [fields, nul]
  | cons c a ih =>
    simp only [List.mem_cons, not_or] at h
    rw [List.cons_append, fields, if_neg (show ¬ c = nul from fun e => h.1 e.symm), ih h.2]

/-- The records of a list of names that are not empty. -/
theorem records_flat (ns : List Text) (h : ∀ n ∈ ns, IsName n) : records (ns.flatMap fun n => n ++ ['\x00']) = ns := by
  have hf : fields (ns.flatMap fun n => n ++ ['\x00']) = ns ++ [[]] := by
    induction ns with
    | nil => rfl
    | cons n ns ih =>
      rw [List.flatMap_cons, List.append_assoc, List.singleton_append, fields_append n _ (h n (by simp)).2,
        ih (fun m hm => h m (by simp [hm]))]
      rfl
  unfold records
  rw [hf]
  simp only [List.reverse_append, List.reverse_cons, List.reverse_nil, List.nil_append, List.singleton_append]
  rw [List.dropWhile_cons, if_pos (by rfl)]
  cases hr : ns.reverse with
  | nil => rw [List.reverse_eq_nil_iff.mp hr]; rfl
  | cons m ms =>
    have hm := (h m (List.mem_reverse.mp (by rw [hr]; simp))).1
    rw [List.dropWhile_cons, if_neg (by simpa using hm), ← hr, List.reverse_reverse]

/-- The records of an entry. -/
def recs : Entry → List Text
  | .unknown n => [['?', '?', ' '] ++ n]
  | .changed x y n none => [[x, y, ' '] ++ n]
  | .changed x y n (some s) => [[x, y, ' '] ++ n, s]

theorem recs_show (e : Entry) : e.show = (recs e).flatMap fun n => n ++ ['\x00'] := by
  match e with
  | .unknown n => simp [Entry.show, recs]
  | .changed x y n none => simp [Entry.show, recs]
  | .changed x y n (some s) => simp [Entry.show, recs]

theorem recs_names (e : Entry) (h : e.Good) : ∀ n ∈ recs e, IsName n := by
  intro n hn
  match e, h with
  | .unknown m, h =>
    simp only [recs, List.mem_singleton] at hn
    subst hn
    refine ⟨by simp, ?_⟩
    simp only [List.cons_append, List.nil_append, List.mem_cons, not_or]
    exact ⟨by decide, by decide, by decide, h.2⟩
  | .changed x y m none, h =>
    simp only [recs, List.mem_singleton] at hn
    subst hn
    refine ⟨by simp, ?_⟩
    simp only [List.cons_append, List.nil_append, List.mem_cons, not_or]
    exact ⟨fun e => h.2.1 e.symm, fun e => h.2.2.1 e.symm, by decide, h.2.2.2.1.2⟩
  | .changed x y m (some s), h =>
    simp only [recs, List.mem_cons, List.not_mem_nil, or_false] at hn
    rcases hn with rfl | rfl
    · refine ⟨by simp, ?_⟩
      simp only [List.cons_append, List.nil_append, List.mem_cons, not_or]
      exact ⟨fun e => h.2.1 e.symm, fun e => h.2.2.1 e.symm, by decide, h.2.2.2.1.2⟩
    · exact h.2.2.2.2 n rfl

theorem records_show (es : List Entry) (h : ∀ e ∈ es, e.Good) : records (es.flatMap Entry.show) = es.flatMap recs := by
  have : es.flatMap Entry.show = (es.flatMap recs).flatMap fun n => n ++ ['\x00'] := by
    rw [List.flatMap_assoc]
    congr 1
    funext e
    exact recs_show e
  rw [this, records_flat]
  intro n hn
  obtain ⟨e, he, hne⟩ := List.mem_flatMap.mp hn
  exact recs_names e (h e he) n hne

theorem pruned_some (t n : Text) : pruned t = some n ↔ t = ['?', '?', ' '] ++ n := by
  unfold pruned
  split
  · constructor
    · intro h
      cases h
      rfl
    · intro h
      cases h
      rfl
  · rename_i hne
    constructor
    · intro h
      cases h
    · intro h
      exact absurd h (hne n)

theorem pruned_changed (x y : Char) (n : Text) (h : x ≠ '?') : pruned ([x, y, ' '] ++ n) = none := by
  cases hp : pruned ([x, y, ' '] ++ n) with
  | none => rfl
  | some m =>
    rw [pruned_some] at hp
    simp only [List.cons_append, List.cons.injEq] at hp
    exact absurd hp.1 h

/-! ## C247 -/

/-- The files reported as unknown, exactly: those git does not know, and for every renamed file that had a name with two question
marks and a space at the beginning the rest of that name. -/
theorem unknown_all (es : List Entry) (h : ∀ e ∈ es, e.Good) :
    listUnknown (es.flatMap Entry.show) = es.flatMap fun
      | .unknown n => [n]
      | .changed _ _ _ s => if s.any (['?', '?', ' '].isPrefixOf ·) then [(s.getD []).drop 3] else [] := by
  unfold listUnknown
  rw [records_show es h]
  induction es with
  | nil => rfl
  | cons e es ih =>
    rw [List.flatMap_cons, List.filterMap_append, ih (fun e he => h e (by simp [he])), List.flatMap_cons]
    congr 1
    have hg := h e (by simp)
    match e, hg with
    | .unknown n, _ => rfl
    | .changed x y n none, hg => simp only [recs, List.filterMap_cons, pruned_changed x y n hg.1, List.filterMap_nil]; rfl
    | .changed x y n (some s), hg =>
      simp only [recs, List.filterMap_cons, pruned_changed x y n hg.1, List.filterMap_nil, Option.any_some, Option.getD_some]
      cases hp : pruned s with
      | none =>
        rw [if_neg]
        intro hpre
        obtain ⟨m, rfl⟩ := List.isPrefixOf_iff_prefix.mp hpre
        rw [(pruned_some _ m).mpr rfl] at hp
        cases hp
      | some m =>
        rw [pruned_some] at hp
        subst hp
        rfl

/-- The files reported as unknown are those git does not know, in git's order, whatever characters their names have, provided that no
file with such a name was renamed. -/
theorem unknown_partial (es : List Entry) (h : ∀ e ∈ es, e.Good) (hp : ∀ e ∈ es, e.Plain) :
    listUnknown (es.flatMap Entry.show) = unknowns es := by
  rw [unknown_all es h]
  unfold unknowns
  induction es with
  | nil => rfl
  | cons e es ih =>
    rw [List.flatMap_cons, List.filterMap_cons, ih (fun e he => h e (by simp [he])) (fun e he => hp e (by simp [he]))]
    match e, hp e (by simp) with
    | .unknown n, _ => rfl
    | .changed x y n none, _ => rfl
    | .changed x y n (some s), hpl =>
      simp only [Option.any_some]
      rw [if_neg]
      · rfl
      · intro hpre
        obtain ⟨m, hm⟩ := List.isPrefixOf_iff_prefix.mp hpre
        exact hpl m (by rw [hm])

/-- There are uncommitted changes exactly if git lists some. -/
theorem uncommitted_iff (es : List Entry) (h : ∀ e ∈ es, e.Good) : haveUncommitted (es.flatMap Entry.show) = true ↔ es ≠ [] := by
  unfold haveUncommitted
  rw [records_show es h]
  cases es with
  | nil => simp
  | cons e es =>
    have : recs e ≠ [] := by
      match e with
      | .unknown n => simp [recs]
      | .changed x y n none => simp [recs]
      | .changed x y n (some s) => simp [recs]
    simp [this]

/-- False in general: a file `?? a` renamed to `b` is reported as the unknown file `a`. -/
theorem unknown_false : ∃ e : Entry, e.Good ∧ unknowns [e] = [] ∧ listUnknown e.show = [['a']] :=
  ⟨.changed 'R' ' ' ['b'] (some ['?', '?', ' ', 'a']), by
    refine ⟨by decide, by decide, by decide, ⟨by decide, by decide⟩, ?_⟩
    intro m hm
    cases hm
    exact ⟨by decide, by decide⟩, rfl, by decide⟩

/-! ### The hypotheses are met -/

example : (∀ e ∈ [Entry.unknown ['a', '\n', ' '], .changed 'R' 'M' ['b'] (some ['c'])], e.Good ∧ e.Plain) ∧
    listUnknown ([Entry.unknown ['a', '\n', ' '], .changed 'R' 'M' ['b'] (some ['c'])].flatMap Entry.show) = [['a', '\n', ' ']] := by
  refine ⟨?_, by decide⟩
  intro e he
  simp only [List.mem_cons, List.not_mem_nil, or_false] at he
  rcases he with rfl | rfl
  · exact ⟨⟨by decide, by decide⟩, trivial⟩
  · refine ⟨⟨by decide, by decide, by decide, ⟨by decide, by decide⟩, ?_⟩, ?_⟩
    · intro m hm
      cases hm
      exact ⟨by decide, by decide⟩
    · intro m hm
      cases hm

end Verif.DepVC.GitStatus
