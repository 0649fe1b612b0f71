import Verif.Mercury.Select

/-! # The arguments of select (C257) -/

namespace Verif.Mercury.Select

open Verif.Deptool.Deps (Text)

/-! ## Specification -/

/-- An option as documented: the format (`true`) or the file, and its value. -/
def given (o : Bool × Text) : Text := (if o.1 then "--format=".toList else "--filename=".toList) ++ o.2

/-- The value of an option: the last one given. -/
def lastOf (b : Bool) (os : List (Bool × Text)) : Option Text := ((os.filter fun o => o.1 == b).map (·.2)).getLast?

/-- A command as documented: options, each after a space, then the query, and spaces at the end. -/
def line (os : List (Bool × Text)) (sql : Text) (k : Nat) : Text :=
  "select".toList ++ ((os.map fun o => ' ' :: given o).flatten ++ (' ' :: sql ++ List.replicate k ' '))

/-! ## Lemmas -/

theorem cut_ne (t : Text) : cut t ≠ [] := by
  cases t with
  | nil => simp [cut]
  | cons c t =>
    unfold cut
    split
    · simp
    · split <;> simp

theorem cut_space (a b : Text) : cut (a ++ ' ' :: b) = cut a ++ cut b := by
  induction a with
  | nil => simp [cut]
  | cons c a ih =>
    rw [List.cons_append]
    by_cases h : c = ' '
    · rw [cut, if_pos h, ih, cut, if_pos h, List.cons_append]
    · rw [cut, if_neg h, ih, cut, if_neg h]
      cases hp : cut a with
      | nil => exact absurd hp (cut_ne a)
      | cons x r => rfl

theorem cut_plain (t : Text) (h : ' ' ∉ t) : cut t = [t] := by
  induction t with
  | nil => rfl
  | cons c t ih =>
    simp only [List.mem_cons, not_or] at h
    rw [cut, if_neg (fun e => h.1 e.symm), ih h.2]

theorem joined_cons (w : Text) (ws : List Text) (h : ws ≠ []) : joined (w :: ws) = w ++ ' ' :: joined ws := by
  cases ws with
  | nil => exact absurd rfl h
  | cons x xs => rfl

theorem joined_cut (t : Text) : joined (cut t) = t := by
  induction t with
  | nil => rfl
  | cons c t ih =>
    rw [cut]
    split
    · rename_i h
      rw [joined_cons _ _ (cut_ne t), ih, h]
      rfl
    · cases hp : cut t with
      | nil => exact absurd hp (cut_ne t)
      | cons x r =>
        rw [hp] at ih
        simp only []
        cases r with
        | nil => rw [joined] at ih ⊢; rw [ih]
        | cons y r =>
          rw [joined_cons _ _ (by simp)] at ih ⊢
          rw [List.cons_append, ih]

theorem cut_last (t : Text) (c : Char) (h : c ≠ ' ') : ∃ ws w, cut (t ++ [c]) = ws ++ [w] ∧ w ≠ [] := by
  induction t with
  | nil => exact ⟨[], [c], by simp [cut, h], by simp⟩
  | cons d t ih =>
    obtain ⟨ws, w, h1, h2⟩ := ih
    rw [List.cons_append, cut]
    split
    · exact ⟨[] :: ws, w, by rw [h1]; rfl, h2⟩
    · rw [h1]
      cases ws with
      | nil => exact ⟨[], d :: w, rfl, by simp⟩
      | cons x ws => exact ⟨(d :: x) :: ws, w, rfl, h2⟩

theorem cut_blanks (t : Text) (k : Nat) : cut (t ++ List.replicate k ' ') = cut t ++ List.replicate k [] := by
  induction k generalizing t with
  | zero => simp
  | succ k ih =>
    rw [List.replicate_succ, show t ++ ' ' :: List.replicate k ' ' = (t ++ [' ']) ++ List.replicate k ' ' by simp, ih, cut_space t [],
      List.replicate_succ]
    simp [cut]

theorem drop_blank_words (ws : List Text) (w : Text) (k : Nat) (h : w ≠ []) :
    ((ws ++ [w] ++ List.replicate k []).reverse.dropWhile fun x : Text => x.isEmpty).reverse = ws ++ [w] := by
  rw [List.reverse_append, List.reverse_replicate]
  have : ∀ n, (List.replicate n ([] : Text) ++ (ws ++ [w]).reverse).dropWhile (fun x : Text => x.isEmpty) = (ws ++ [w]).reverse := by
    intro n
    induction n with
    | zero =>
      rw [List.reverse_append]
      simp [List.dropWhile_cons, h]
    | succ n ih =>
      rw [List.replicate_succ, List.cons_append, List.dropWhile_cons]
      exact ih
  rw [this, List.reverse_reverse]

/-- The words of a text that does not end in a space are not changed by spaces at its end. -/
theorem words_blanks (t : Text) (c : Char) (k : Nat) (h : c ≠ ' ') : words (t ++ [c] ++ List.replicate k ' ') = cut (t ++ [c]) := by
  obtain ⟨ws, w, h1, h2⟩ := cut_last t c h
  unfold words
  rw [cut_blanks, h1, drop_blank_words ws w k h2]

theorem given_plain (o : Bool × Text) (h : ' ' ∉ o.2) : ' ' ∉ given o := by
  unfold given
  rw [List.mem_append, not_or]
  refine ⟨?_, h⟩
  cases o.1 <;> decide

theorem cut_opts (os : List (Bool × Text)) (h : ∀ o ∈ os, ' ' ∉ o.2) (a b : Text) :
    cut (a ++ ((os.map fun o => ' ' :: given o).flatten ++ ' ' :: b)) = cut a ++ (os.map given ++ cut b) := by
  induction os generalizing a with
  | nil => simpa using cut_space a b
  | cons o os ih =>
    simp only [List.map_cons, List.flatten_cons, List.cons_append, List.append_assoc]
    have hg := given_plain o (h o (by simp))
    have ih := ih (fun x hx => h x (by simp [hx])) (given o)
    rw [cut_space, ih, cut_plain _ hg]
    rfl

theorem given_dd (o : Bool × Text) : dd.isPrefixOf (given o) = true := by
  obtain ⟨b, v⟩ := o
  cases b <;> rfl

theorem mark_opts (os : List (Bool × Text)) (w : Text) (ws : List Text) (h : dd.isPrefixOf w = false) : mark (os.map given ++ w :: ws) = os.map given ++ dd :: w :: ws := by
  induction os with
  | nil =>
    show mark (w :: ws) = _
    rw [mark, if_neg (by simp [h])]
    rfl
  | cons o os ih =>
    rw [List.map_cons, List.cons_append, mark, if_pos (given_dd o), ih, List.cons_append]

theorem take_eq (n v : Text) (h : '=' ∉ n) : (n ++ '=' :: v).takeWhile (· ≠ '=') = n ∧ (n ++ '=' :: v).dropWhile (· ≠ '=') = '=' :: v := by
  induction n with
  | nil => simp
  | cons c n ih =>
    simp only [List.mem_cons, not_or] at h
    have hc : c ≠ '=' := fun e => h.1 e.symm
    obtain ⟨h1, h2⟩ := ih h.2
    rw [List.cons_append, List.takeWhile_cons, List.dropWhile_cons]
    simp only [ne_eq, hc, not_false_eq_true, decide_true, if_true]
    exact ⟨congrArg (c :: ·) h1, h2⟩

theorem getopts_given (o : Bool × Text) (hv : o.2 ≠ []) (ws : List Text) (s : Opts) : getopts (given o :: ws) s = getopts ws (s.set o.1 o.2) := by
  obtain ⟨b, v⟩ := o
  cases v with
  | nil => exact absurd rfl hv
  | cons c v =>
    have key : ∀ (n : Text) (k : Bool), n ≠ [] → '=' ∉ n → optName n = some k → getopts (('-' :: '-' :: (n ++ '=' :: c :: v)) :: ws) s = getopts ws (s.set k (c :: v)) := by
      intro n k hn he hk
      obtain ⟨h1, h2⟩ := take_eq n (c :: v) he
      rw [getopts]
      have hne : ('-' :: '-' :: (n ++ '=' :: c :: v)) ≠ dd := by
        intro e
        cases n with
        | nil => exact hn rfl
        | cons x n => cases e
      rw [if_neg hne]
      simp only [optBody]
      rw [h1, h2, if_pos ⟨hn, by simp⟩, hk]
      rfl
    cases b with
    | true => exact key ['f', 'o', 'r', 'm', 'a', 't'] true (by decide) (by decide) (by decide)
    | false => exact key ['f', 'i', 'l', 'e', 'n', 'a', 'm', 'e'] false (by decide) (by decide) (by decide)

theorem getopts_opts (os : List (Bool × Text)) (h : ∀ o ∈ os, o.2 ≠ []) (ws : List Text) (s : Opts) :
    getopts (os.map given ++ dd :: ws) s = some (⟨(lastOf true os).getD s.format, (lastOf false os).or s.filename⟩, ws) := by
  induction os generalizing s with
  | nil =>
    show getopts (dd :: ws) s = _
    rw [getopts, if_pos rfl]
    rfl
  | cons o os ih =>
    rw [List.map_cons, List.cons_append, getopts_given o (h o (by simp)), ih fun x hx => h x (by simp [hx])]
    obtain ⟨b, v⟩ := o
    have hl : ∀ (v : Text) (l : List Text), (v :: l).getLast? = some (l.getLast?.getD v) := by
      intro v l
      cases l with
      | nil => rfl
      | cons x l => simp [List.getLast?_cons]
    cases b with
    | true =>
      have e1 : lastOf true ((true, v) :: os) = some ((lastOf true os).getD v) := by
        unfold lastOf
        simp only [List.filter_cons, BEq.rfl, if_true, List.map_cons]
        exact hl v _
      have e2 : lastOf false ((true, v) :: os) = lastOf false os := by
        unfold lastOf
        simp [List.filter_cons]
      rw [e1, e2]
      rfl
    | false =>
      have e1 : lastOf false ((false, v) :: os) = some ((lastOf false os).getD v) := by
        unfold lastOf
        simp only [List.filter_cons, BEq.rfl, if_true, List.map_cons]
        exact hl v _
      have e2 : lastOf true ((false, v) :: os) = lastOf true os := by
        unfold lastOf
        simp [List.filter_cons]
      rw [e1, e2]
      cases hx : lastOf false os <;> rfl

theorem cut_head (sql : Text) (h : ¬ "--".toList <+: sql) : ∃ w ws, cut sql = w :: ws ∧ dd.isPrefixOf w = false := by
  cases hc : cut sql with
  | nil => exact absurd hc (cut_ne sql)
  | cons w ws =>
    refine ⟨w, ws, rfl, ?_⟩
    cases hp : dd.isPrefixOf w with
    | false => rfl
    | true =>
      exfalso
      apply h
      have hj := joined_cut sql
      rw [hc] at hj
      have hw : w <+: sql := by
        rw [← hj]
        cases ws with
        | nil => exact List.prefix_refl _
        | cons x ws => rw [joined_cons _ _ (by simp)]; exact List.prefix_append _ _
      exact (List.isPrefixOf_iff_prefix.mp hp).trans hw

/-! ## C257 -/

/-- The options are those given, the last of each kind counts, and the query is what was written, space for space, up to spaces at the end; options in
the query are left alone. -/
theorem select_args_partial (os : List (Bool × Text)) (sql : Text) (k : Nat) (hv : ∀ o ∈ os, o.2 ≠ [] ∧ ' ' ∉ o.2)
    (hs : ¬ "--".toList <+: sql) (hne : sql ≠ []) (hl : sql.getLast? ≠ some ' ') :
    select (line os sql k) = .query ⟨(lastOf true os).getD "text-table".toList, lastOf false os⟩ ("select ".toList ++ sql) := by
  obtain ⟨u, c, rfl⟩ : ∃ u c, sql = u ++ [c] := ⟨sql.dropLast, sql.getLast hne, (List.dropLast_concat_getLast hne).symm⟩
  have hc : c ≠ ' ' := by
    intro e
    apply hl
    rw [e]
    simp
  obtain ⟨w, ws, hcut, hw⟩ := cut_head _ hs
  have hwords : words (line os (u ++ [c]) k) = tSelect :: (os.map given ++ w :: ws) := by
    have h1 : line os (u ++ [c]) k = (tSelect ++ ((os.map fun o => ' ' :: given o).flatten ++ ' ' :: u)) ++ [c] ++ List.replicate k ' ' := by
      show tSelect ++ _ = _
      simp [List.append_assoc]
    have h2 : (tSelect ++ ((os.map fun o => ' ' :: given o).flatten ++ ' ' :: u)) ++ [c] = tSelect ++ ((os.map fun o => ' ' :: given o).flatten ++ ' ' :: (u ++ [c])) := by
      simp [List.append_assoc]
    rw [h1, words_blanks _ c k hc, h2, cut_opts os (fun o ho => (hv o ho).2), hcut, cut_plain tSelect (by decide)]
    rfl
  unfold select
  rw [hwords]
  simp only [if_true]
  rw [mark_opts os w ws hw]
  have hg : getopts (tSelect :: (os.map given ++ dd :: w :: ws)) ⟨tTable, none⟩ = some (⟨(lastOf true os).getD tTable, lastOf false os⟩, tSelect :: w :: ws) := by
    rw [getopts, if_neg (by decide), show optBody tSelect = none from by decide]
    simp only []
    rw [getopts_opts os fun o ho => (hv o ho).1]
    simp
  rw [hg]
  simp only []
  have hj := joined_cut (u ++ [c])
  rw [hcut] at hj
  rw [joined_cons _ _ (by simp), hj]
  rfl

/-- False: that the value may be an argument of its own, as with other programs: the format is `--` then, and the value becomes part of the query. -/
theorem separate_value_false : select "select --format csv a from t".toList = .query ⟨"--".toList, none⟩ "select csv a from t".toList := by decide +kernel

/-- False: that a name of a file may have spaces in it, quoted or not. -/
theorem filename_false : select "select --filename=\"a b\" c from t".toList = .query ⟨"text-table".toList, some "\"a".toList⟩ "select b\" c from t".toList := by decide +kernel

/-- False: that `--` may end the options: it becomes part of the query, where it begins a comment. -/
theorem dashes_false : select "select -- a from t".toList = .query ⟨"text-table".toList, none⟩ "select -- a from t".toList := by decide +kernel

/-- Other options are refused. -/
theorem unknown_refused (n v sql : Text) (hn : n ≠ [] ∧ '=' ∉ n ∧ ' ' ∉ n) (hv : ' ' ∉ v) (hu : ¬ n.map Char.toLower <+: "format".toList) (hu' : ¬ n.map Char.toLower <+: "filename".toList) :
    select ("select --".toList ++ (n ++ '=' :: v ++ ' ' :: (sql ++ ['x']))) = .usage := by
  have hplain : ' ' ∉ ('-' :: '-' :: (n ++ '=' :: v)) := by
    simp [hn.2.2, hv]
  have hwords : words ("select --".toList ++ (n ++ '=' :: v ++ ' ' :: (sql ++ ['x']))) = tSelect :: ('-' :: '-' :: (n ++ '=' :: v)) :: cut (sql ++ ['x']) := by
    have h1 : "select --".toList ++ (n ++ '=' :: v ++ ' ' :: (sql ++ ['x'])) = (tSelect ++ ' ' :: (('-' :: '-' :: (n ++ '=' :: v)) ++ ' ' :: sql)) ++ ['x'] ++ List.replicate 0 ' ' := by
      show tSelect ++ ' ' :: '-' :: '-' :: _ = _
      simp [List.append_assoc]
    have h2 : (tSelect ++ ' ' :: (('-' :: '-' :: (n ++ '=' :: v)) ++ ' ' :: sql)) ++ ['x'] = tSelect ++ ' ' :: (('-' :: '-' :: (n ++ '=' :: v)) ++ ' ' :: (sql ++ ['x'])) := by
      simp [List.append_assoc]
    rw [h1, words_blanks _ 'x' 0 (by decide), h2, cut_space, cut_space, cut_plain _ hplain, cut_plain tSelect (by decide)]
    rfl
  unfold select
  rw [hwords]
  simp only [if_true]
  have hm : mark (('-' :: '-' :: (n ++ '=' :: v)) :: cut (sql ++ ['x'])) = ('-' :: '-' :: (n ++ '=' :: v)) :: mark (cut (sql ++ ['x'])) := by
    rw [mark, if_pos (by rfl)]
  have hopt : optName n = none := by
    unfold optName
    have a1 : List.isPrefixOf (n.map Char.toLower) ['f', 'o', 'r', 'm', 'a', 't'] = false := by
      cases h : List.isPrefixOf (n.map Char.toLower) ['f', 'o', 'r', 'm', 'a', 't'] with
      | false => rfl
      | true => exact absurd (List.isPrefixOf_iff_prefix.mp h) hu
    have a2 : List.isPrefixOf (n.map Char.toLower) ['f', 'i', 'l', 'e', 'n', 'a', 'm', 'e'] = false := by
      cases h : List.isPrefixOf (n.map Char.toLower) ['f', 'i', 'l', 'e', 'n', 'a', 'm', 'e'] with
      | false => rfl
      | true => exact absurd (List.isPrefixOf_iff_prefix.mp h) hu'
    rw [a1, a2]
  have hg : getopts (tSelect :: mark (('-' :: '-' :: (n ++ '=' :: v)) :: cut (sql ++ ['x']))) ⟨tTable, none⟩ = none := by
    obtain ⟨h1, h2⟩ := take_eq n v hn.2.1
    have hne : ('-' :: '-' :: (n ++ '=' :: v)) ≠ dd := by
      intro e
      cases n with
      | nil => exact hn.1 rfl
      | cons x n => cases e
    rw [getopts, if_neg (by decide), show optBody tSelect = none from by decide]
    simp only []
    rw [hm, getopts, if_neg hne]
    simp only [optBody]
    rw [h1, h2, if_pos ⟨hn.1, by simp⟩, hopt]
    rfl
  rw [hg]

/-! ### The hypotheses are met -/

example : select (line [(true, ['c', 's', 'v']), (false, ['o'])] "a, --  b from t".toList 2) = .query ⟨['c', 's', 'v'], some ['o']⟩ "select a, --  b from t".toList := by decide +kernel

example : ¬ "--".toList <+: "a, b".toList ∧ ("a, b".toList).getLast? ≠ some ' ' := ⟨by decide, by decide⟩

example : ¬ (['w', 'i', 'd', 't', 'h'] : Text).map Char.toLower <+: "format".toList ∧ ¬ (['w', 'i', 'd', 't', 'h'] : Text).map Char.toLower <+: "filename".toList := ⟨by decide, by decide⟩

end Verif.Mercury.Select
