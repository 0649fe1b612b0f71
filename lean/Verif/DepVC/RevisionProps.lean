import Verif.DepVC.Revision
import Verif.Deptool.DepsProps

/-! # C196: what git says about a revision is understood -/

namespace Verif.DepVC.Revision

open Verif.Deptool.Deps (Text isWord cutLast cutLast_append)

/-- A commit as git stores it. `extra` are fields between the committer and the message (`encoding`). -/
structure Raw where
  id : Text
  tree : Text
  parents : List Text
  author : Text
  seconds : Text
  zone : Text
  committer : Text
  extra : List (Text × Text)
  message : List Text

def fieldLine (k v : Text) : Text := k ++ ' ' :: v

def kTree : Text := ['t', 'r', 'e', 'e']
def kCommitter : Text := ['c', 'o', 'm', 'm', 'i', 't', 't', 'e', 'r']

/-- The fields of a commit in the order of `git log --format=raw`. -/
def Raw.fields (r : Raw) : List (Text × Text) :=
  (kCommit, r.id) :: (kTree, r.tree) :: (r.parents.map fun p => (kParent, p)) ++
    (kAuthor, r.author ++ ' ' :: (r.seconds ++ ' ' :: r.zone)) :: (kCommitter, r.committer) :: r.extra

/-- The output of `git log --format=raw`. -/
def Raw.print (r : Raw) : List Text := (r.fields.map fun f => fieldLine f.1 f.2) ++ [] :: (r.message.map fun l => ' ' :: ' ' :: ' ' :: ' ' :: l)

structure Good (r : Raw) : Prop where
  id : r.id ≠ []
  tree : r.tree ≠ []
  parents : ∀ p ∈ r.parents, p ≠ []
  author : r.author ≠ []
  seconds : r.seconds ≠ [] ∧ r.seconds.all Char.isDigit = true
  zone : ∃ s a b c d, r.zone = [s, a, b, c, d] ∧ (s = '+' ∨ s = '-') ∧ [a, b, c, d].all Char.isDigit = true
  committer : r.committer ≠ []
  extra : ∀ f ∈ r.extra, f.1 ≠ [] ∧ f.1.all isWord = true ∧ f.2 ≠ [] ∧ f.1 ≠ kCommit ∧ f.1 ≠ kAuthor ∧ f.1 ≠ kParent

def FieldOk (f : Text × Text) : Prop := f.1 ≠ [] ∧ f.1.all isWord = true ∧ f.2 ≠ []

theorem parseField_line (f : Text × Text) (h : FieldOk f) : parseField (fieldLine f.1 f.2) = some f := by
  obtain ⟨k, v⟩ := f
  obtain ⟨h1, h2, h3⟩ := h
  simp only at h1 h2 h3
  have hw : ∀ k : Text, k.all isWord = true → (fieldLine k v).takeWhile isWord = k ∧ (fieldLine k v).dropWhile isWord = ' ' :: v := by
    intro k
    induction k with
    | nil => intro _; exact ⟨rfl, rfl⟩
    | cons c k ih =>
      intro hk
      simp only [List.all_cons, Bool.and_eq_true] at hk
      obtain ⟨a, b⟩ := ih hk.2
      constructor
      · show (c :: fieldLine k v).takeWhile isWord = _
        rw [List.takeWhile_cons, if_pos hk.1, a]
      · show (c :: fieldLine k v).dropWhile isWord = _
        rw [List.dropWhile_cons, if_pos hk.1, b]
  obtain ⟨a, b⟩ := hw k h2
  unfold parseField
  simp only [a, b]
  cases k with
  | nil => exact absurd rfl h1
  | cons c k =>
    cases v with
    | nil => exact absurd rfl h3
    | cons x v => rfl

theorem parseFields_lines (fs : List (Text × Text)) (h : ∀ f ∈ fs, FieldOk f) : parseFields (fs.map fun f => fieldLine f.1 f.2) = some fs := by
  induction fs with
  | nil => rfl
  | cons f fs ih =>
    rw [List.map_cons, parseFields, parseField_line f (h f (List.mem_cons_self ..)), ih fun x hx => h x (List.mem_cons_of_mem _ hx)]
    rfl

theorem fieldLine_true (f : Text × Text) (h : FieldOk f) : ¬ (fieldLine f.1 f.2 = [] ∨ fieldLine f.1 f.2 = ['0']) := by
  obtain ⟨k, v⟩ := f
  obtain ⟨h1, _, h3⟩ := h
  simp only at h1 h3
  have hk : 0 < k.length := List.length_pos_iff.mpr h1
  have hl : (fieldLine k v).length = k.length + 1 + v.length := by
    unfold fieldLine; simp only [List.length_append, List.length_cons]; omega
  rintro (e | e)
  · have := congrArg List.length e; rw [hl] at this; simp at this
  · have := congrArg List.length e; rw [hl] at this; simp at this; omega

theorem splitHead_lines (fs : List (Text × Text)) (h : ∀ f ∈ fs, FieldOk f) (rest : List Text) :
    splitHead ((fs.map fun f => fieldLine f.1 f.2) ++ [] :: rest) = (fs.map fun f => fieldLine f.1 f.2, rest) := by
  induction fs with
  | nil => simp [splitHead]
  | cons f fs ih =>
    rw [List.map_cons, List.cons_append, splitHead, if_neg (fieldLine_true f (h f (List.mem_cons_self ..))), ih fun x hx => h x (List.mem_cons_of_mem _ hx)]

theorem fields_ok (r : Raw) (h : Good r) : ∀ f ∈ r.fields, FieldOk f := by
  intro f hf
  unfold Raw.fields at hf
  simp only [List.mem_cons, List.mem_append, List.mem_map, List.cons_append] at hf
  rcases hf with rfl | rfl | ⟨p, hp, rfl⟩ | rfl | rfl | hf
  · exact ⟨(by decide : kCommit ≠ []), (by decide : kCommit.all isWord = true), h.id⟩
  · exact ⟨(by decide : kTree ≠ []), (by decide : kTree.all isWord = true), h.tree⟩
  · exact ⟨(by decide : kParent ≠ []), (by decide : kParent.all isWord = true), h.parents p hp⟩
  · exact ⟨(by decide : kAuthor ≠ []), (by decide : kAuthor.all isWord = true), by simp⟩
  · exact ⟨(by decide : kCommitter ≠ []), (by decide : kCommitter.all isWord = true), h.committer⟩
  · have := h.extra f hf
    exact ⟨this.1, this.2.1, this.2.2.1⟩

theorem values_append (k : Text) (a b : List (Text × Text)) : values k (a ++ b) = values k a ++ values k b := by
  unfold values; rw [List.filter_append, List.map_append]

theorem values_cons_eq (k v : Text) (b : List (Text × Text)) : values k ((k, v) :: b) = v :: values k b := by
  unfold values; simp

theorem values_cons_ne {k j v : Text} (h : j ≠ k) (b : List (Text × Text)) : values k ((j, v) :: b) = values k b := by
  unfold values; simp [h]

theorem values_none (k : Text) (a : List (Text × Text)) (h : ∀ f ∈ a, f.1 ≠ k) : values k a = [] := by
  unfold values
  rw [List.map_eq_nil_iff, List.filter_eq_nil_iff]
  intro f hf
  simpa using h f hf

theorem values_parents (ps : List Text) : values kParent (ps.map fun p => (kParent, p)) = ps := by
  induction ps with
  | nil => rfl
  | cons p ps ih => rw [List.map_cons, values_cons_eq, ih]

theorem parents_ne (k : Text) (hk : kParent ≠ k) (ps : List Text) : values k (ps.map fun p => (kParent, p)) = [] := by
  apply values_none
  intro f hf
  obtain ⟨p, _, rfl⟩ := List.mem_map.mp hf
  exact hk

theorem fields_values (r : Raw) (h : Good r) :
    values kCommit r.fields = [r.id] ∧ values kAuthor r.fields = [r.author ++ ' ' :: (r.seconds ++ ' ' :: r.zone)] ∧ values kParent r.fields = r.parents := by
  unfold Raw.fields
  rw [List.cons_append, List.cons_append]
  refine ⟨?_, ?_, ?_⟩
  · rw [values_cons_eq, values_cons_ne (by decide), values_append, parents_ne _ (by decide), values_cons_ne (by decide), values_cons_ne (by decide),
      values_none _ _ fun f hf => (h.extra f hf).2.2.2.1]
    rfl
  · rw [values_cons_ne (by decide), values_cons_ne (by decide), values_append, parents_ne _ (by decide), values_cons_eq, values_cons_ne (by decide),
      values_none _ _ fun f hf => (h.extra f hf).2.2.2.2.1]
    rfl
  · rw [values_cons_ne (by decide), values_cons_ne (by decide), values_append, values_parents, values_cons_ne (by decide), values_cons_ne (by decide),
      values_none _ _ fun f hf => (h.extra f hf).2.2.2.2.2, List.append_nil]

theorem digits_space {t : Text} (h : t.all Char.isDigit = true) : ' ' ∉ t := by
  intro hm
  have := List.all_eq_true.mp h _ hm
  revert this; decide

theorem parseAuthor_ok (r : Raw) (h : Good r) : parseAuthor (r.author ++ ' ' :: (r.seconds ++ ' ' :: r.zone)) = some (r.author, r.seconds) := by
  obtain ⟨s, a, b, c, d, hz, hs, hd⟩ := h.zone
  have hzone : isZone r.zone = true := by
    rw [hz]; unfold isZone
    rcases hs with rfl | rfl <;> simp only [hd] <;> rfl
  have hsp : ' ' ∉ r.zone := by
    rw [hz, List.mem_cons, not_or]
    exact ⟨by rcases hs with rfl | rfl <;> decide, digits_space hd⟩
  have e : r.author ++ ' ' :: (r.seconds ++ ' ' :: r.zone) = (r.author ++ ' ' :: r.seconds) ++ ' ' :: r.zone := by simp
  unfold parseAuthor
  rw [e, cutLast_append ' ' _ _ hsp]
  simp only
  rw [if_pos hzone, cutLast_append ' ' _ _ (digits_space h.seconds.2)]
  simp only
  rw [if_pos ⟨h.author, h.seconds.1, h.seconds.2⟩]

theorem body_ok (msg : List Text) : dropBlank (msg.map fun l => ' ' :: ' ' :: ' ' :: ' ' :: l) = (msg.map fun l => ' ' :: ' ' :: ' ' :: ' ' :: l) ∧
    (msg.map fun l => ' ' :: ' ' :: ' ' :: ' ' :: l).any flush = false ∧ ((msg.map fun l => ' ' :: ' ' :: ' ' :: ' ' :: l).map unindent).flatten = msg.flatten := by
  refine ⟨?_, ?_, ?_⟩
  · unfold dropBlank
    rw [if_neg]
    rw [List.getLast?_map]
    cases msg.getLast? <;> simp
  · rw [List.any_eq_false]
    intro l hl
    obtain ⟨m, _, rfl⟩ := List.mem_map.mp hl
    show ¬ (flush (' ' :: ' ' :: ' ' :: ' ' :: m)) = true
    simp [flush, isSpace]
  · rw [List.map_map]
    have : (unindent ∘ fun l : Text => ' ' :: ' ' :: ' ' :: ' ' :: l) = id := by funext l; rfl
    rw [this, List.map_id]

/-- C196: for every commit without fields of several lines, the revision, the author, the time and the ancestors are those git prints, and the text is that of the message, but with its lines put together. `code-review` takes the revision if and only if it has exactly one parent. -/
theorem revision_partial (r : Raw) (h : Good r) :
    ∃ i, parse r.print = some i ∧ i.revision = r.id ∧ i.author = r.author ∧ i.date = r.seconds ∧ i.ancestors = r.parents.take 2 ∧ i.changelog = r.message.flatten ∧
      (reviewable i = true ↔ r.parents.length = 1) := by
  obtain ⟨b1, b2, b3⟩ := body_ok r.message
  obtain ⟨v1, v2, v3⟩ := fields_values r h
  refine ⟨⟨r.id, r.author, r.seconds, r.parents.take 2, r.message.flatten⟩, ?_, rfl, rfl, rfl, rfl, rfl, ?_⟩
  · unfold parse Raw.print
    rw [splitHead_lines _ (fields_ok r h)]
    simp only [parseFields_lines _ (fields_ok r h), b1, b2, Bool.false_eq_true, if_false]
    unfold assemble
    simp only [v1, v2, v3, parseAuthor_ok r h, b3, Option.map_some]
  · unfold reviewable
    simp only [List.length_take, decide_eq_true_eq]
    omega

def raw1 : Raw := { id := ['a', '1'], tree := ['b', '2'], parents := [['c', '3']], author := "A B <a@b>".toList, seconds := "1300000000".toList, zone := "-0700".toList, committer := "C <c@d> 1300000001 +0000".toList, extra := [("encoding".toList, "latin1".toList)], message := ["Fix".toList, [], "more".toList] }

example : Good raw1 ∧ parse raw1.print = some ⟨['a', '1'], "A B <a@b>".toList, "1300000000".toList, [['c', '3']], "Fixmore".toList⟩ :=
  ⟨⟨by decide +kernel, by decide +kernel, by decide +kernel, by decide +kernel, by decide +kernel, ⟨'-', '0', '7', '0', '0', by decide +kernel, by decide, by decide⟩, by decide +kernel, by decide +kernel⟩, by decide +kernel⟩

/-- C196, false of the code: messages that differ give the same text; the first line, which `review-status` is to show, can not be told from the rest. -/
theorem revision_lines_false : ∃ r s : Raw, r.message ≠ s.message ∧ r.message.head? ≠ s.message.head? ∧ (parse r.print).map Info.changelog = (parse s.print).map Info.changelog ∧ (parse r.print).isSome = true :=
  ⟨raw1, { raw1 with message := ["Fixmore".toList] }, by decide +kernel, by decide +kernel, by decide +kernel, by decide +kernel⟩

/-- C196, false of the code: a signed commit, whose signature goes over several lines that begin with a blank, makes the program die. -/
theorem revision_signed_false : ∃ (r : Raw) (more : List Text), Good r ∧ (∀ l ∈ more, l.head? = some ' ') ∧
    parse ((r.fields.map fun f => fieldLine f.1 f.2) ++ more ++ [] :: (r.message.map fun l => ' ' :: ' ' :: ' ' :: ' ' :: l)) = none :=
  ⟨{ raw1 with extra := [("gpgsig".toList, "-----BEGIN".toList)] }, [" iQEz".toList, " -----END".toList],
    ⟨by decide +kernel, by decide +kernel, by decide +kernel, by decide +kernel, by decide +kernel, ⟨'-', '0', '7', '0', '0', by decide +kernel, by decide, by decide⟩, by decide +kernel, by decide +kernel⟩,
    by decide +kernel, by decide +kernel⟩

/-- C196, false of the code: for a merge, and for the first commit, `code-review` dies for want of an ancestor; the question whether to go on with a merge is never asked. -/
theorem revision_merge_false : ∀ r : Raw, Good r → r.parents.length ≠ 1 → ∃ i, parse r.print = some i ∧ reviewable i = false := by
  intro r h hp
  obtain ⟨i, e, _, _, _, _, _, hr⟩ := revision_partial r h
  refine ⟨i, e, ?_⟩
  cases hb : reviewable i with
  | false => rfl
  | true => exact absurd (hr.mp hb) hp

/-- C196: output with a line in the text that is not indented, but for one at the end that is empty, is refused, whatever else is in it. -/
theorem revision_refused (head body : List Text) (hh : ∀ l ∈ head, l ≠ [] ∧ l ≠ ['0']) (c : Char) (l : Text) (hc : c ∉ [' ', '\t', '\n', '\r', '\x0c', '\x0b']) (hl : (c :: l) ∈ body) :
    parse (head ++ [] :: body) = none := by
  have hs : splitHead (head ++ [] :: body) = (head, body) := by
    induction head with
    | nil => simp [splitHead]
    | cons x xs ih =>
      have hx := hh x (List.mem_cons_self ..)
      rw [List.cons_append, splitHead, if_neg (fun h => h.elim hx.1 hx.2), ih fun y hy => hh y (List.mem_cons_of_mem _ hy)]
  have hf : flush (c :: l) = true := by
    simp only [List.mem_cons, List.not_mem_nil, or_false, not_or] at hc
    obtain ⟨h1, h2, h3, h4, h5, h6⟩ := hc
    simp [flush, isSpace, h1, h2, h3, h4, h5, h6]
  have hm : (c :: l) ∈ dropBlank body := by
    unfold dropBlank
    split
    · rename_i he
      obtain ⟨ys, hy⟩ := List.getLast?_eq_some_iff.mp he
      rw [hy] at hl ⊢
      rw [List.dropLast_concat]
      rcases List.mem_append.mp hl with h | h
      · exact h
      · simp at h
    · exact hl
  unfold parse
  rw [hs]
  cases parseFields head with
  | none => rfl
  | some fs =>
    simp only
    rw [if_pos (List.any_eq_true.mpr ⟨_, hm, hf⟩)]

example : parse (["commit a1".toList] ++ [] :: ["    Fix".toList, "x".toList]) = none :=
  revision_refused _ _ (by decide +kernel) 'x' [] (by decide) (by decide)

end Verif.DepVC.Revision
