import Verif.Mercury.SqlLemmas

/-!
# Properties of the adjustment of queries (C178)
-/

namespace Verif.Mercury

/-! ## Specification -/

/-- A blank after the last text. -/
def addBlank : List (Kw × Text) → List (Kw × Text)
  | [] => []
  | [(k, b)] => [(k, b ++ [' '])]
  | c :: d :: cs => c :: addBlank (d :: cs)

/-- A new clause in its place among the others. -/
def Query.insert (k : Kw) (body : Text) (q : Query) : Query :=
  let pre := q.clauses.takeWhile fun c => c.1.rank < k.rank
  let post := q.clauses.dropWhile fun c => c.1.rank < k.rank
  { sel := if pre.isEmpty then q.sel ++ [' '] else q.sel, clauses := addBlank pre ++ (k, if post.isEmpty then ' ' :: body else ' ' :: body ++ [' ']) :: post }

/-- There is such a clause. -/
def Query.has (q : Query) (k : Kw) : Bool := q.clauses.any fun c => c.1 == k

/-- `default table`: used if there is no from clause. -/
def Query.withTable (table : Text) (q : Query) : Query := if q.has .from then q else q.insert .from table

/-- The condition and the default one. -/
def both (dw : Text) : List (Kw × Text) → List (Kw × Text)
  | [] => []
  | (k, b) :: cs => if k = .where then (k, ' ' :: paren dw ++ andText ++ paren (b.drop 1) ++ (if cs.isEmpty then [] else [' '])) :: cs else (k, b) :: both dw cs

/-- `default where`: always added. -/
def Query.withWhere (dw : Text) (q : Query) : Query :=
  if q.has .where then { q with clauses := both dw q.clauses } else q.insert .where (paren dw)

/-- Nothing in the text is taken for the next clause: no word begins with `group`, there is no `having` or `order`, no word ends with `limit`. -/
def FragFree (t : Text) : Prop :=
  ∀ a k b, t = a ++ k ++ b → ¬ ((k = kGroup ∧ EndsFree a) ∨ k = kHaving ∨ k = kOrder ∨ (k = kLimit ∧ StartsFree b))

/-- The same for all texts of where clauses. -/
def Query.WhereFree (q : Query) : Prop := ∀ b, (Kw.where, b) ∈ q.clauses → FragFree b

/-- A table name: a word that is not a keyword. -/
def TableName (t : Text) : Prop := Wordy t ∧ ∀ k : Kw, t ≠ k.text

/-! ## Proofs -/

theorem printClauses_append (a b : List (Kw × Text)) : printClauses (a ++ b) = printClauses a ++ printClauses b := by
  simp [printClauses]

theorem printClauses_cons (k : Kw) (b : Text) (cs : List (Kw × Text)) : printClauses ((k, b) :: cs) = k.text ++ b ++ printClauses cs := by
  simp [printClauses]

theorem print_addBlank {cs : List (Kw × Text)} (h : cs ≠ []) : printClauses (addBlank cs) = printClauses cs ++ [' '] := by
  induction cs with
  | nil => exact absurd rfl h
  | cons c cs ih =>
    cases cs with
    | nil => obtain ⟨k, b⟩ := c; simp [addBlank, printClauses]
    | cons d ds =>
      show printClauses (c :: addBlank (d :: ds)) = _
      obtain ⟨k, b⟩ := c
      rw [printClauses_cons, ih (by simp), printClauses_cons (cs := d :: ds)]
      simp

/-- The printed query with a new clause. -/
theorem print_insert {q : Query} {k : Kw} {body : Text} {pre post : List (Kw × Text)} (h : q.clauses = pre ++ post)
    (h1 : ∀ c ∈ pre, c.1.rank < k.rank) (h2 : ∀ c ∈ post, ¬ c.1.rank < k.rank) :
    (q.insert k body).print = q.sel ++ printClauses pre ++ ' ' :: k.text ++ ' ' :: body ++ (if post.isEmpty then [] else [' ']) ++ printClauses post := by
  have ht : (q.clauses.takeWhile fun c => c.1.rank < k.rank) = pre := by
    rw [h, List.takeWhile_append_of_pos (by simpa using h1)]
    cases post with
    | nil => simp
    | cons c cs => rw [List.takeWhile_cons_of_neg (by simpa using h2 c (List.mem_cons_self ..))]; simp
  have hd : (q.clauses.dropWhile fun c => c.1.rank < k.rank) = post := by
    rw [h, List.dropWhile_append_of_pos (by simpa using h1)]
    cases post with
    | nil => rfl
    | cons c cs => rw [List.dropWhile_cons_of_neg (by simpa using h2 c (List.mem_cons_self ..))]
  unfold Query.insert
  rw [ht, hd]
  unfold Query.print
  simp only []
  rw [printClauses_append, printClauses_cons]
  cases pre with
  | nil => cases post <;> simp [addBlank, printClauses]
  | cons c cs =>
    rw [print_addBlank (by simp)]
    cases post <;> simp [printClauses]

theorem insertBefore_clause {q : Query} (hq : q.Clean) {pre post : List (Kw × Text)} {k : Kw} {b new : Text} (hc : q.clauses = pre ++ (k, b) :: post) :
    insertBefore k.text new q.print = some (q.sel ++ printClauses pre ++ ' ' :: new ++ ' ' :: printClauses ((k, b) :: post)) := by
  unfold insertBefore
  rw [findWord_clause hq hc, printClauses_cons]
  simp

theorem insertBefore_absent {q : Query} (hq : q.Clean) {k : Kw} {new : Text} (hc : ∀ c ∈ q.clauses, c.1 ≠ k) : insertBefore k.text new q.print = none := by
  unfold insertBefore
  rw [findWord_absent hq hc]
  rfl

/-- `addFrom` is `withTable`. -/
theorem addFrom_eq {q : Query} (hq : q.Clean) (table : Text) : addFrom table q.print = (q.withTable table).print := by
  unfold addFrom Query.withTable
  by_cases hf : q.has .from = true
  · rw [if_pos hf, if_pos]
    unfold Query.has at hf
    rw [List.any_eq_true] at hf
    obtain ⟨⟨k, b⟩, hm, hk⟩ := hf
    have hk : k = Kw.from := by simpa using hk
    subst hk
    obtain ⟨pre, post, he⟩ := List.append_of_mem hm
    rw [show kFrom = Kw.from.text from rfl, findWord_clause hq he]
    rfl
  · rw [if_neg hf]
    have ha : ∀ c ∈ q.clauses, c.1 ≠ Kw.from := by
      intro c hc he
      apply hf
      unfold Query.has
      rw [List.any_eq_true]
      exact ⟨c, hc, by rw [he]; rfl⟩
    rw [if_neg (by rw [show kFrom = Kw.from.text from rfl, findWord_absent hq ha]; simp)]
    simp only []
    rw [print_insert (pre := []) (post := q.clauses) rfl (by simp) (by intro c _; show ¬ c.1.rank < 0; omega)]
    cases hc : q.clauses with
    | nil =>
      have hn : ∀ k : Kw, ∀ c ∈ q.clauses, c.1 ≠ k := by rw [hc]; simp
      rw [show kWhere = Kw.where.text from rfl, show kGroup = Kw.group.text from rfl, show kHaving = Kw.having.text from rfl, show kOrder = Kw.order.text from rfl, show kLimit = Kw.limit.text from rfl,
        insertBefore_absent hq (hn _), insertBefore_absent hq (hn _), insertBefore_absent hq (hn _), insertBefore_absent hq (hn _), insertBefore_absent hq (hn _)]
      unfold Query.print
      rw [hc]
      simp [printClauses, Kw.text]
    | cons c cs =>
      obtain ⟨k, b⟩ := c
      have hcl := hq.clauses
      rw [hc] at hcl
      obtain ⟨_, _, _, h4, _⟩ := hcl
      have hlow : ∀ j : Kw, j.rank < k.rank → ∀ c ∈ q.clauses, c.1 ≠ j := by
        intro j hj c hcm he
        rw [hc] at hcm
        rcases List.mem_cons.mp hcm with rfl | hcm
        · rw [← he] at hj; simp at hj
        · have := h4 c hcm; rw [he] at this; omega
      have hit : ∀ new, insertBefore k.text new q.print = some (q.sel ++ printClauses [] ++ ' ' :: new ++ ' ' :: printClauses ((k, b) :: cs)) :=
        fun new => insertBefore_clause hq (pre := []) (by rw [hc]; rfl)
      rw [show kWhere = Kw.where.text from rfl, show kGroup = Kw.group.text from rfl, show kHaving = Kw.having.text from rfl, show kOrder = Kw.order.text from rfl, show kLimit = Kw.limit.text from rfl]
      cases k with
      | «from» => exact absurd rfl (ha (Kw.from, b) (by rw [hc]; exact List.mem_cons_self ..))
      | «where» => rw [hit]; simp [Kw.text]
      | group => rw [insertBefore_absent hq (hlow .where (by decide)), hit]; simp [Kw.text]
      | having => rw [insertBefore_absent hq (hlow .where (by decide)), insertBefore_absent hq (hlow .group (by decide)), hit]; simp [Kw.text]
      | order =>
        rw [insertBefore_absent hq (hlow .where (by decide)), insertBefore_absent hq (hlow .group (by decide)), insertBefore_absent hq (hlow .having (by decide)), hit]
        simp [Kw.text]
      | limit =>
        rw [insertBefore_absent hq (hlow .where (by decide)), insertBefore_absent hq (hlow .group (by decide)), insertBefore_absent hq (hlow .having (by decide)),
          insertBefore_absent hq (hlow .order (by decide)), hit]
        simp [Kw.text]

/-- `\bwhere\s` is the word followed by a space. -/
theorem findWhere_some {prev : Bool} {t a r : Text} {s : Char} (h : findWord kWhere prev t = some (a, s :: r)) (hs : isSpace s = true) :
    findWhere prev t = some (a, r) := by
  induction t generalizing prev a with
  | nil => unfold findWord at h; split at h <;> simp at h
  | cons c x ih =>
    rw [findWord] at h
    rw [findWhere]
    split at h
    · rename_i g
      simp only [Option.some.injEq, Prod.mk.injEq] at h
      obtain ⟨rfl, h⟩ := h
      have h5 : (c :: x).drop 5 = s :: r := h
      have h6 : (c :: x).drop 6 = r := by
        rw [show (6 : Nat) = 5 + 1 from rfl, ← List.drop_drop, h5]; rfl
      rw [Bool.and_eq_true] at g
      rw [if_pos, h6]
      rw [g.1, h5]
      simpa using hs
    · rename_i g
      obtain ⟨⟨y, z⟩, hf, he⟩ := Option.map_eq_some_iff.mp h
      simp only [Prod.mk.injEq] at he
      obtain ⟨rfl, rfl⟩ := he
      rw [if_neg]
      · rw [ih hf]; rfl
      · intro hh
        apply g
        rw [Bool.and_eq_true] at hh
        rw [hh.1]
        have h2 := hh.2
        show (true && !startsWord ((c :: x).drop 5)) = true
        revert h2
        cases (c :: x).drop 5 with
        | nil => simp
        | cons d y => intro h2; simp [startsWord, isSpace_not_word h2]

theorem findWhere_none {prev : Bool} {t : Text} (h : findWord kWhere prev t = none) : findWhere prev t = none := by
  induction t generalizing prev with
  | nil => rfl
  | cons c x ih =>
    rw [findWord] at h
    rw [findWhere]
    split at h
    · cases h
    · rename_i g
      rw [if_neg]
      · rw [ih (by cases hf : findWord kWhere (isWord c) x with | none => rfl | some y => rw [hf] at h; cases h)]; rfl
      · intro hh
        apply g
        rw [Bool.and_eq_true] at hh
        rw [hh.1]
        have h2 := hh.2
        show (true && !startsWord ((c :: x).drop 5)) = true
        revert h2
        cases (c :: x).drop 5 with
        | nil => simp
        | cons d y => intro h2; simp [startsWord, isSpace_not_word h2]

theorem clauseHere_some {prev : Bool} {t k : Text} (h : clauseHere prev t = some k) :
    ∃ b, t = k ++ b ∧ ((k = kGroup ∧ prev = false) ∨ k = kHaving ∨ k = kOrder ∨ (k = kLimit ∧ StartsFree b)) := by
  unfold clauseHere at h
  split at h
  · rename_i g
    cases h
    rw [Bool.and_eq_true, List.isPrefixOf_iff_prefix] at g
    obtain ⟨g1, b, g2⟩ := g
    exact ⟨b, g2.symm, .inl ⟨rfl, by simpa using g1⟩⟩
  split at h
  · rename_i g
    cases h
    rw [List.isPrefixOf_iff_prefix] at g
    obtain ⟨b, g2⟩ := g
    exact ⟨b, g2.symm, .inr (.inl rfl)⟩
  split at h
  · rename_i g
    cases h
    rw [List.isPrefixOf_iff_prefix] at g
    obtain ⟨b, g2⟩ := g
    exact ⟨b, g2.symm, .inr (.inr (.inl rfl))⟩
  split at h
  · rename_i g
    cases h
    rw [Bool.and_eq_true, List.isPrefixOf_iff_prefix] at g
    obtain ⟨⟨b, g2⟩, g1⟩ := g
    refine ⟨b, g2.symm, .inr (.inr (.inr ⟨rfl, ?_⟩))⟩
    rw [← g2, show (5 : Nat) = kLimit.length from rfl, List.drop_left] at g1
    exact startsWord_false.mp (by simpa using g1)
  · cases h

theorem findClause_some {prev : Bool} {t a k b : Text} (h : findClause prev t = some (a, k, b)) :
    t = a ++ k ++ b ∧ ((k = kGroup ∧ EndsFree a ∧ (a = [] → prev = false)) ∨ k = kHaving ∨ k = kOrder ∨ (k = kLimit ∧ StartsFree b)) := by
  induction t generalizing prev a with
  | nil => cases h
  | cons c r ih =>
    rw [findClause] at h
    split at h
    · rename_i k' hk
      simp only [Option.some.injEq, Prod.mk.injEq] at h
      obtain ⟨rfl, rfl, rfl⟩ := h
      obtain ⟨b, h1, h2⟩ := clauseHere_some hk
      rw [h1, List.drop_left]
      refine ⟨rfl, ?_⟩
      rcases h2 with h2 | h2 | h2 | h2
      · exact .inl ⟨h2.1, endsFree_nil, fun _ => h2.2⟩
      · exact .inr (.inl h2)
      · exact .inr (.inr (.inl h2))
      · exact .inr (.inr (.inr h2))
    · obtain ⟨⟨x, y⟩, hf, he⟩ := Option.map_eq_some_iff.mp h
      simp only [Prod.mk.injEq] at he
      obtain ⟨rfl, rfl⟩ := he
      obtain ⟨i1, i2⟩ := ih hf
      refine ⟨by rw [i1]; rfl, ?_⟩
      rcases i2 with ⟨i2, i3, i4⟩ | i2 | i2 | i2
      · refine .inl ⟨i2, ?_, fun h => (by cases h)⟩
        by_cases hx : x = []
        · subst hx
          intro d hd
          simp only [List.getLast?_singleton, Option.some.injEq] at hd
          rw [← hd]; exact i4 rfl
        · exact endsFree_append (a := [c]) i3 hx
      · exact .inr (.inl i2)
      · exact .inr (.inr (.inl i2))
      · exact .inr (.inr (.inr i2))

theorem findClause_none {t : Text} (h : FragFree t) : findClause false t = none := by
  cases hf : findClause false t with
  | none => rfl
  | some x =>
    obtain ⟨a, k, b⟩ := x
    obtain ⟨h1, h2⟩ := findClause_some hf
    refine absurd ?_ (h a k b h1)
    rcases h2 with ⟨h2, h3, _⟩ | h2
    · exact .inl ⟨h2, h3⟩
    · exact .inr h2

theorem prefix_within {k a r : Text} (hk : Wordy k) (ha : EndsFree a) (hne : a ≠ []) (h : k.isPrefixOf (a ++ r) = true) : k.isPrefixOf a = true := by
  rw [List.isPrefixOf_iff_prefix] at h ⊢
  obtain ⟨y, h⟩ := h
  rcases List.append_eq_append_iff.mp h with ⟨m, h1, _⟩ | ⟨m, h1, _⟩
  · exact ⟨m, h1.symm⟩
  · exact absurd (wordy_end hk h1 ha) hne

theorem clauseHere_within {prev : Bool} {a r : Text} (ha : EndsFree a) (hne : a ≠ []) (h : clauseHere prev a = none) : clauseHere prev (a ++ r) = none := by
  unfold clauseHere at h ⊢
  split at h
  · cases h
  rename_i g1
  split at h
  · cases h
  rename_i g2
  split at h
  · cases h
  rename_i g3
  split at h
  · cases h
  rename_i g4
  rw [if_neg, if_neg, if_neg, if_neg]
  · intro hh
    apply g4
    rw [Bool.and_eq_true] at hh ⊢
    have hp := prefix_within (Kw.wordy .limit) ha hne hh.1
    refine ⟨hp, ?_⟩
    obtain ⟨m, rfl⟩ := List.isPrefixOf_iff_prefix.mp hp
    have h2 := hh.2
    rw [List.append_assoc, show (5 : Nat) = Kw.limit.text.length from rfl, List.drop_left] at h2
    rw [show (5 : Nat) = Kw.limit.text.length from rfl, List.drop_left]
    cases m with
    | nil => rfl
    | cons d m => exact h2
  · exact fun hh => g3 (prefix_within (Kw.wordy .order) ha hne hh)
  · exact fun hh => g2 (prefix_within (Kw.wordy .having) ha hne hh)
  · intro hh
    rw [Bool.and_eq_true] at hh
    exact g1 (by rw [hh.1]; exact prefix_within (Kw.wordy .group) ha hne hh.2)

theorem clauseHere_kw {k : Kw} (hk : 1 < k.rank) {b : Text} (hb : StartsFree b) : clauseHere false (k.text ++ b) = some k.text := by
  have hp : k.text.isPrefixOf (k.text ++ b) = true := List.isPrefixOf_iff_prefix.mpr ⟨b, rfl⟩
  unfold clauseHere
  cases k with
  | «from» => exact absurd hk (by decide)
  | «where» => exact absurd hk (by decide)
  | group =>
    have hp : kGroup.isPrefixOf (Kw.group.text ++ b) = true := hp
    rw [if_pos (by rw [hp]; rfl)]; rfl
  | having =>
    have hp : kHaving.isPrefixOf (Kw.having.text ++ b) = true := hp
    rw [if_neg (by simp [Kw.text, kHaving, kGroup]), if_pos hp]; rfl
  | order =>
    have hp : kOrder.isPrefixOf (Kw.order.text ++ b) = true := hp
    rw [if_neg (by simp [Kw.text, kOrder, kGroup]), if_neg (by simp [Kw.text, kHaving, kOrder]), if_pos hp]; rfl
  | limit =>
    rw [if_neg (by simp [Kw.text, kLimit, kGroup]), if_neg (by simp [Kw.text, kHaving, kLimit]), if_neg (by simp [Kw.text, kLimit, kOrder]), if_pos]
    · rfl
    · rw [show (5 : Nat) = Kw.limit.text.length from rfl, List.drop_left, startsWord_false.mpr hb]
      rw [Bool.and_eq_true]
      exact ⟨hp, rfl⟩

theorem findClause_first {prev : Bool} {a b : Text} {k : Kw} (hk : 1 < k.rank) (hp : a = [] → prev = false) (ha : EndsFree a) (hb : StartsFree b)
    (hn : findClause prev a = none) : findClause prev (a ++ (k.text ++ b)) = some (a, k.text, b) := by
  induction a generalizing prev with
  | nil =>
    have hp := hp rfl
    subst hp
    have h := clauseHere_kw hk hb
    have hd : (k.text ++ b).drop k.text.length = b := List.drop_left
    show findClause false (k.text ++ b) = _
    revert h hd
    generalize hT : k.text = T
    have hT : T ≠ [] := hT ▸ (Kw.wordy k).1
    intro h hd
    cases T with
    | nil => exact absurd rfl hT
    | cons c r =>
      show findClause false (c :: (r ++ b)) = _
      rw [findClause]
      rw [show c :: (r ++ b) = (c :: r) ++ b from rfl, h]
      simp only [hd]
  | cons c r ih =>
    rw [findClause] at hn
    split at hn
    · cases hn
    · rename_i g
      show findClause prev (c :: (r ++ (k.text ++ b))) = _
      rw [findClause, show c :: (r ++ (k.text ++ b)) = (c :: r) ++ (k.text ++ b) from rfl, clauseHere_within ha (by simp) g]
      simp only []
      rw [ih (prev := isWord c)]
      · rfl
      · rintro rfl
        exact ha c rfl
      · by_cases hr : r = []
        · subst hr; exact endsFree_nil
        · exact endsFree_right (a := [c]) ha hr
      · cases hf : findClause (isWord c) r with
        | none => rfl
        | some x => rw [hf] at hn; cases hn

theorem both_append {dw : Text} {pre post : List (Kw × Text)} {b : Text} (h : ∀ c ∈ pre, c.1 ≠ Kw.where) :
    both dw (pre ++ (Kw.where, b) :: post) = pre ++ (Kw.where, ' ' :: paren dw ++ andText ++ paren (b.drop 1) ++ (if post.isEmpty then [] else [' '])) :: post := by
  induction pre with
  | nil => simp [both]
  | cons c pre ih =>
    obtain ⟨k, d⟩ := c
    have hk : k ≠ Kw.where := h (k, d) (List.mem_cons_self ..)
    show both dw ((k, d) :: (pre ++ _)) = _
    rw [both, if_neg hk, ih fun c hc => h c (List.mem_cons_of_mem _ hc)]
    rfl

theorem fragFree_tail {c : Char} {r : Text} (hc : isWord c = false) (h : FragFree (c :: r)) : FragFree r := by
  intro a k b he hk
  refine h (c :: a) k b (by rw [he]; rfl) ?_
  rcases hk with ⟨h1, h2⟩ | h1
  · refine .inl ⟨h1, ?_⟩
    by_cases ha : a = []
    · subst ha
      intro d hd
      simp only [List.getLast?_singleton, Option.some.injEq] at hd
      rw [← hd]; exact hc
    · exact endsFree_append (a := [c]) h2 ha
  · exact .inr h1

/-- `addWhere` is `withWhere`. -/
theorem addWhere_eq {q : Query} (hq : q.Clean) (hw : q.WhereFree) (dw : Text) : addWhere dw q.print = (q.withWhere dw).print := by
  unfold addWhere Query.withWhere
  by_cases hf : q.has .where = true
  · rw [if_pos hf]
    unfold Query.has at hf
    rw [List.any_eq_true] at hf
    obtain ⟨⟨k, b⟩, hm, hk⟩ := hf
    have hk : k = Kw.where := by simpa using hk
    subst hk
    have hfree := hw b hm
    obtain ⟨pre, post, he⟩ := List.append_of_mem hm
    have hcl := hq.clauses
    rw [he] at hcl
    obtain ⟨_, _, hpre, ⟨s, w, rfl, hs⟩, _, hend, hpost, hclp⟩ := clean_before hcl
    have h1 := findWord_clause hq he
    have h2 : findWhere false q.print = some (q.sel ++ printClauses pre, w ++ printClauses post) :=
      findWhere_some (s := s) (r := w ++ printClauses post) h1 hs
    have hprint : ({ q with clauses := both dw q.clauses } : Query).print = q.sel ++ printClauses pre ++ kWhere ++ ' ' :: paren dw ++ andText ++ paren w ++ (if post.isEmpty then [] else [' ']) ++ printClauses post := by
      show q.sel ++ printClauses (both dw q.clauses) = _
      rw [he, both_append (fun c hc he => by have := hpre c hc; rw [he] at this; exact absurd this (by decide)), printClauses_append, printClauses_cons]
      simp [Kw.text]
    rw [h2, hprint]
    simp only []
    have hfw : FragFree w := fragFree_tail (isSpace_not_word hs) hfree
    cases post with
    | nil =>
      have : w ++ printClauses [] = w := by simp [printClauses]
      rw [this, findClause_none hfw]
      simp [printClauses]
    | cons c post =>
      obtain ⟨k, b⟩ := c
      have hb : StartsFree (b ++ printClauses post) := by
        obtain ⟨⟨x, r, rfl, hsx⟩, _⟩ := hclp
        exact startsFree_body ⟨x, r ++ printClauses post, rfl, hsx⟩
      have hew : EndsFree w := by
        by_cases hwn : w = []
        · subst hwn; exact endsFree_nil
        · exact endsFree_right (a := [s]) (hend (by simp)) hwn
      rw [printClauses_cons, List.append_assoc k.text, findClause_first (hpost (k, b) (List.mem_cons_self ..)) (fun _ => rfl) hew hb (findClause_none hfw)]
      simp
  · rw [if_neg hf]
    have ha : ∀ c ∈ q.clauses, c.1 ≠ Kw.where := by
      intro c hc he
      apply hf
      unfold Query.has
      rw [List.any_eq_true]
      exact ⟨c, hc, by rw [he]; rfl⟩
    rw [findWhere_none (findWord_absent hq (k := .where) ha)]
    simp only []
    -- the clauses before and after
    obtain ⟨pre, post, he, h1, h2⟩ : ∃ pre post, q.clauses = pre ++ post ∧ (∀ c ∈ pre, c.1.rank < Kw.where.rank) ∧ (∀ c ∈ post, ¬ c.1.rank < Kw.where.rank) := by
      cases hc : q.clauses with
      | nil => exact ⟨[], [], rfl, by simp, by simp⟩
      | cons c cs =>
        obtain ⟨k, b⟩ := c
        have hcl := hq.clauses
        rw [hc] at hcl
        obtain ⟨_, _, _, h4, _⟩ := hcl
        by_cases hk : k.rank < 1
        · refine ⟨[(k, b)], cs, rfl, by simpa [Kw.rank] using hk, ?_⟩
          intro d hd
          have := h4 d hd
          show ¬ d.1.rank < 1
          omega
        · refine ⟨[], (k, b) :: cs, rfl, by simp, ?_⟩
          intro d hd
          show ¬ d.1.rank < 1
          rcases List.mem_cons.mp hd with rfl | hd
          · exact hk
          · have := h4 d hd; omega
    rw [print_insert he h1 h2]
    rw [show kGroup = Kw.group.text from rfl, show kHaving = Kw.having.text from rfl, show kOrder = Kw.order.text from rfl, show kLimit = Kw.limit.text from rfl]
    cases post with
    | nil =>
      have hn : ∀ k : Kw, 1 < k.rank → ∀ c ∈ q.clauses, c.1 ≠ k := by
        intro k hk c hc hek
        rw [he, List.append_nil] at hc
        have := h1 c hc
        rw [hek] at this
        have : k.rank < 1 := this
        omega
      rw [insertBefore_absent hq (hn _ (by decide)), insertBefore_absent hq (hn _ (by decide)), insertBefore_absent hq (hn _ (by decide)), insertBefore_absent hq (hn _ (by decide))]
      unfold Query.print
      rw [he]
      simp [printClauses, Kw.text]
    | cons c cs =>
      obtain ⟨k, b⟩ := c
      have hcl := hq.clauses
      rw [he] at hcl
      obtain ⟨_, _, hpre, _, _, _, h4, _⟩ := clean_before hcl
      have hlow : ∀ j : Kw, 1 < j.rank → j.rank < k.rank → ∀ c ∈ q.clauses, c.1 ≠ j := by
        intro j hj1 hj c hcm hej
        rw [he] at hcm
        rcases List.mem_append.mp hcm with hcm | hcm
        · have : c.1.rank < 1 := h1 c hcm
          rw [hej] at this; omega
        · rcases List.mem_cons.mp hcm with rfl | hcm
          · rw [← hej] at hj; simp at hj
          · have := h4 c hcm; rw [hej] at this; omega
      have hit : ∀ new, insertBefore k.text new q.print = some (q.sel ++ printClauses pre ++ ' ' :: new ++ ' ' :: printClauses ((k, b) :: cs)) :=
        fun new => insertBefore_clause hq he
      have hge : ¬ k.rank < Kw.where.rank := h2 (k, b) (List.mem_cons_self ..)
      cases k with
      | «from» => exact absurd (by decide) hge
      | «where» => exact absurd rfl (ha (Kw.where, b) (by rw [he]; exact List.mem_append_right _ (List.mem_cons_self ..)))
      | group => rw [hit]; simp [Kw.text]
      | having => rw [insertBefore_absent hq (hlow .group (by decide) (by decide)), hit]; simp [Kw.text]
      | order => rw [insertBefore_absent hq (hlow .group (by decide) (by decide)), insertBefore_absent hq (hlow .having (by decide) (by decide)), hit]; simp [Kw.text]
      | limit =>
        rw [insertBefore_absent hq (hlow .group (by decide) (by decide)), insertBefore_absent hq (hlow .having (by decide) (by decide)),
          insertBefore_absent hq (hlow .order (by decide) (by decide)), hit]
        simp [Kw.text]

theorem noKw_blank {t : Text} (h : NoKw t) : NoKw (t ++ [' ']) := by
  intro k hk
  rcases occurs_append (Kw.wordy k) (.inr (startsFree_body ⟨' ', [], rfl, by decide⟩)) hk with hk | hk
  · exact h k hk
  · obtain ⟨a, b, he, _, _⟩ := hk
    have hm : ∀ c ∈ k.text, c = ' ' := by
      intro c hc
      have : c ∈ [' '] := by rw [he]; exact List.mem_append_left _ (List.mem_append_right _ hc)
      simpa using this
    revert hm
    cases k <;> decide

theorem noKw_table {t : Text} (h : TableName t) : NoKw (' ' :: t) := by
  intro k hk
  rcases occurs_append (a := [' ']) (Kw.wordy k) (.inl (fun c hc => by simp at hc; rw [← hc]; decide)) hk with hk | hk
  · exact noKw_blank (t := []) (by
      intro j ⟨a, b, he, _⟩
      have he : a ++ j.text ++ b = [] := he.symm
      simp only [List.append_eq_nil_iff] at he
      exact (Kw.wordy j).1 he.1.2) k hk
  · obtain ⟨a, b, he, h2, h3⟩ := hk
    have ha : a = [] := wordy_end h.1 (by rw [he, List.append_assoc]) h2
    subst ha
    have hb : b = [] := wordy_start h.1 he h3
    subst hb
    exact h.2 k (by rw [he]; simp)

theorem clean_withTable {q : Query} (hq : q.Clean) {table : Text} (ht : TableName table) : (q.withTable table).Clean := by
  unfold Query.withTable
  by_cases hf : q.has .from = true
  · rw [if_pos hf]; exact hq
  · rw [if_neg hf]
    have hz : (fun c : Kw × Text => decide (c.1.rank < Kw.from.rank)) = fun _ => false := by
      funext c; simp [Kw.rank]
    have e : q.insert .from table = { sel := q.sel ++ [' '], clauses := (Kw.from, if q.clauses.isEmpty then ' ' :: table else ' ' :: table ++ [' ']) :: q.clauses } := by
      unfold Query.insert
      rw [hz]
      have h1 : q.clauses.takeWhile (fun _ => false) = [] := by cases q.clauses <;> rfl
      have h2 : q.clauses.dropWhile (fun _ => false) = q.clauses := by cases q.clauses <;> rfl
      rw [h1, h2]
      rfl
    rw [e]
    refine ⟨noKw_blank hq.sel, fun _ c hc => ?_, ?_, ?_, ?_, ?_, hq.clauses⟩
    · simp only [List.getLast?_concat, Option.some.injEq] at hc
      rw [← hc]; decide
    · split
      · exact ⟨' ', table, rfl, by decide⟩
      · exact ⟨' ', table ++ [' '], rfl, by decide⟩
    · split
      · exact noKw_table ht
      · exact noKw_blank (noKw_table ht)
    · intro hne
      rw [if_neg (by simpa using hne)]
      intro c hc
      rw [List.getLast?_concat] at hc
      cases hc; decide
    · intro d hd
      have hne : d.1 ≠ Kw.from := by
        intro he
        apply hf
        unfold Query.has
        rw [List.any_eq_true]
        exact ⟨d, hd, by rw [he]; rfl⟩
      revert hne
      cases d.1 <;> decide

theorem whereFree_withTable {q : Query} (hw : q.WhereFree) (table : Text) : (q.withTable table).WhereFree := by
  unfold Query.withTable
  split
  · exact hw
  · intro b hb
    have hz : (fun c : Kw × Text => decide (c.1.rank < Kw.from.rank)) = fun _ => false := by
      funext c; simp [Kw.rank]
    unfold Query.insert at hb
    rw [hz] at hb
    have h1 : q.clauses.takeWhile (fun _ => false) = [] := by cases q.clauses <;> rfl
    have h2 : q.clauses.dropWhile (fun _ => false) = q.clauses := by cases q.clauses <;> rfl
    rw [h1, h2] at hb
    simp only [addBlank, List.nil_append, List.mem_cons, Prod.mk.injEq] at hb
    rcases hb with ⟨hb, _⟩ | hb
    · cases hb
    · exact hw b hb

/-- C178: for a query in lower case whose names and strings hold no keywords, the adjusted text is the query with the default table as its from clause if it had none and with its condition
joined to the default one; everything else is kept. -/
theorem adjust_partial {q : Query} (hq : q.Clean) (hw : q.WhereFree) {table : Text} (ht : TableName table) (dw : Text) :
    adjust (some table) (some dw) q.print = ((q.withTable table).withWhere dw).print ∧
    adjust (some table) none q.print = (q.withTable table).print ∧
    adjust none (some dw) q.print = (q.withWhere dw).print ∧
    adjust none none q.print = q.print := by
  refine ⟨?_, addFrom_eq hq table, addWhere_eq hq hw dw, rfl⟩
  unfold adjust
  simp only []
  rw [addFrom_eq hq, addWhere_eq (clean_withTable hq ht) (whereFree_withTable hw table)]

/-- `plot` queries without an order: the order by clause goes before `limit`. -/
def Query.withOrder (c : Text) (q : Query) : Query :=
  let r := q.insert .order (['b', 'y', ' '] ++ c)
  { r with clauses := r.clauses.map fun d => if d.1 = .limit then (d.1, ' ' :: d.2) else d }

/-- C178: `plotOrder` keeps a query that has an order clause, and otherwise adds the order by the plotted column before the limit; queries for segments are kept. -/
theorem plotOrder_eq {q : Query} (hq : q.Clean) :
    (q.has .order = true → plotOrder q.print = q.print) ∧
    (q.has .order = false → hasWord kCdf q.print = true → plotOrder q.print = (q.withOrder kCdf).print) ∧
    (q.has .order = false → hasWord kCdf q.print = false → hasWord kSeg q.print = true → plotOrder q.print = q.print) ∧
    (q.has .order = false → hasWord kCdf q.print = false → hasWord kSeg q.print = false → plotOrder q.print = (q.withOrder ['x']).print) := by
  have hord : hasWord kOrder q.print = q.has .order := by
    unfold hasWord
    by_cases h : q.has .order = true
    · rw [h]
      unfold Query.has at h
      rw [List.any_eq_true] at h
      obtain ⟨⟨k, b⟩, hm, hk⟩ := h
      have hk : k = Kw.order := by simpa using hk
      subst hk
      obtain ⟨pre, post, he⟩ := List.append_of_mem hm
      rw [show kOrder = Kw.order.text from rfl, findWord_clause hq he]
      rfl
    · have ha : ∀ c ∈ q.clauses, c.1 ≠ Kw.order := by
        intro c hc he
        apply h
        unfold Query.has
        rw [List.any_eq_true]
        exact ⟨c, hc, by rw [he]; rfl⟩
      rw [show kOrder = Kw.order.text from rfl, findWord_absent hq ha]
      simpa using h
  have hadd : q.has .order = false → ∀ c, addOrder c q.print = (q.withOrder c).print := by
    intro hno c
    have ha : ∀ c ∈ q.clauses, c.1 ≠ Kw.order := by
      intro c hc he
      have : q.has .order = true := by
        unfold Query.has
        rw [List.any_eq_true]
        exact ⟨c, hc, by rw [he]; rfl⟩
      rw [this] at hno; cases hno
    unfold addOrder
    by_cases h : q.has .limit = true
    · unfold Query.has at h
      rw [List.any_eq_true] at h
      obtain ⟨⟨k, b⟩, hm, hk⟩ := h
      have hk : k = Kw.limit := by simpa using hk
      subst hk
      obtain ⟨pre, post, he⟩ := List.append_of_mem hm
      rw [show kLimit = Kw.limit.text from rfl, findWord_clause hq he]
      have hcl := hq.clauses
      rw [he] at hcl
      obtain ⟨_, _, hpre, _, _, _, hpost, _⟩ := clean_before hcl
      have hpn : post = [] := by
        cases post with
        | nil => rfl
        | cons d ds =>
          have h5 : 5 < d.1.rank := hpost d (List.mem_cons_self ..)
          have h6 : ∀ k : Kw, k.rank ≤ 5 := by intro k; cases k <;> decide
          have := h6 d.1
          omega
      subst hpn
      have hpre4 : ∀ c ∈ pre, c.1.rank < Kw.order.rank := by
        intro c hc
        have h1 := hpre c hc
        have h2 := ha c (by rw [he]; exact List.mem_append_left _ hc)
        revert h1 h2
        cases c.1 <;> decide
      have ht : (q.clauses.takeWhile fun c => c.1.rank < Kw.order.rank) = pre := by
        rw [he, List.takeWhile_append_of_pos (by simpa using hpre4), List.takeWhile_cons_of_neg (by simp [Kw.rank])]; simp
      have hd : (q.clauses.dropWhile fun c => c.1.rank < Kw.order.rank) = [(Kw.limit, b)] := by
        rw [he, List.dropWhile_append_of_pos (by simpa using hpre4), List.dropWhile_cons_of_neg (by simp [Kw.rank])]
      have hmap : ∀ l : List (Kw × Text), (∀ c ∈ l, c.1.rank < Kw.order.rank) → l.map (fun d => if d.1 = Kw.limit then (d.1, ' ' :: d.2) else d) = l := by
        intro l hl
        rw [List.map_congr_left (g := id), List.map_id]
        intro d hdm
        rw [if_neg]
        · rfl
        · intro hdl; have := hl d hdm; rw [hdl] at this; exact absurd this (by decide)
      have hab : ∀ l : List (Kw × Text), (∀ c ∈ l, c.1.rank < Kw.order.rank) → ∀ c ∈ addBlank l, c.1.rank < Kw.order.rank := by
        intro l
        induction l with
        | nil => exact fun h => h
        | cons x xs ih =>
          intro hl
          cases xs with
          | nil =>
            obtain ⟨k, b⟩ := x
            intro c hc
            simp only [addBlank, List.mem_singleton] at hc
            subst hc
            exact hl (k, b) (List.mem_cons_self ..)
          | cons y ys =>
            intro c hc
            rcases List.mem_cons.mp hc with rfl | hc
            · exact hl _ (List.mem_cons_self ..)
            · exact ih (fun d hd => hl d (List.mem_cons_of_mem _ hd)) c hc
      unfold Query.withOrder Query.insert
      rw [ht, hd]
      unfold Query.print
      simp only [List.map_append, hmap _ (hab _ hpre4), List.map_cons, List.map_nil]
      rw [printClauses_append]
      cases pre with
      | nil => simp [addBlank, printClauses, byText, Kw.text]
      | cons c cs =>
        rw [print_addBlank (by simp)]
        simp [printClauses, byText, Kw.text]
    · have hal : ∀ c ∈ q.clauses, c.1 ≠ Kw.limit := by
        intro c hc he
        apply h
        unfold Query.has
        rw [List.any_eq_true]
        exact ⟨c, hc, by rw [he]; rfl⟩
      rw [show kLimit = Kw.limit.text from rfl, findWord_absent hq hal]
      have hall : ∀ c ∈ q.clauses, c.1.rank < Kw.order.rank := by
        intro c hc
        have h1 := hal c hc
        have h2 := ha c hc
        revert h1 h2
        cases c.1 <;> decide
      have hno : ∀ d ∈ (q.insert .order (['b', 'y', ' '] ++ c)).clauses, d.1 ≠ Kw.limit := by
        have hab : ∀ l : List (Kw × Text), (∀ c ∈ l, c.1 ≠ Kw.limit) → ∀ c ∈ addBlank l, c.1 ≠ Kw.limit := by
          intro l
          induction l with
          | nil => exact fun h => h
          | cons x xs ih =>
            intro hl
            cases xs with
            | nil =>
              obtain ⟨k, b⟩ := x
              intro c hc
              simp only [addBlank, List.mem_singleton] at hc
              subst hc
              exact hl (k, b) (List.mem_cons_self ..)
            | cons y ys =>
              intro c hc
              rcases List.mem_cons.mp hc with rfl | hc
              · exact hl _ (List.mem_cons_self ..)
              · exact ih (fun d hd => hl d (List.mem_cons_of_mem _ hd)) c hc
        intro d hd
        unfold Query.insert at hd
        rcases List.mem_append.mp hd with hd | hd
        · exact hab _ (fun e he => hal e ((List.takeWhile_sublist _).subset he)) d hd
        · rcases List.mem_cons.mp hd with rfl | hd
          · exact fun h => by cases h
          · exact hal d ((List.dropWhile_sublist _).subset hd)
      have hm : (q.withOrder c).print = (q.insert .order (['b', 'y', ' '] ++ c)).print := by
        unfold Query.withOrder Query.print
        simp only []
        rw [List.map_congr_left (g := id), List.map_id]
        intro d hdm
        rw [if_neg (hno d hdm)]
        rfl
      rw [hm, print_insert (pre := q.clauses) (post := []) (by simp) hall (by simp)]
      unfold Query.print
      simp [byText, Kw.text, printClauses]
  unfold plotOrder
  rw [hord]
  refine ⟨fun h => by rw [if_pos h], fun h hc => ?_, fun h hc hs => ?_, fun h hc hs => ?_⟩
  · rw [if_neg (by simp [h]), if_pos hc, hadd h]
  · rw [if_neg (by simp [h]), if_neg (by simp [hc]), if_pos hs]
  · rw [if_neg (by simp [h]), if_neg (by simp [hc]), if_neg (by simp [hs]), hadd h]

/-! ## Examples and counterexamples -/

/-- Deciding `FragFree` and `NoKw` by the search. -/
theorem noKw_of_find {t : Text} (h : ∀ k ∈ [kFrom, kWhere, kGroup, kHaving, kOrder, kLimit], findWord k false t = none) : NoKw t := by
  intro k ho
  have hk : k.text ∈ [kFrom, kWhere, kGroup, kHaving, kOrder, kLimit] := by cases k <;> decide
  have hn := h _ hk
  obtain ⟨a, b, he, ha, hb⟩ := ho
  -- an occurrence is found, whatever comes before
  have : ∀ (x : Text) (prev : Bool), (x = [] → prev = false) → EndsFree x → (findWord k.text prev (x ++ k.text ++ b)).isSome = true := by
    intro x
    induction x with
    | nil => intro prev hp hx; rw [findWord_first (Kw.wordy k) hp hx hb (by unfold findWord; rw [if_neg]; cases k <;> simp [Kw.text, kFrom, kWhere, kGroup, kHaving, kOrder, kLimit])]; rfl
    | cons c r ih =>
      intro prev _ hx
      show (findWord k.text prev (c :: (r ++ k.text ++ b))).isSome = true
      rw [findWord]
      split
      · rfl
      · rw [Option.isSome_map]
        refine ih (isWord c) ?_ ?_
        · rintro rfl; exact hx c rfl
        · by_cases hr : r = []
          · subst hr; exact endsFree_nil
          · exact endsFree_right (a := [c]) hx hr
  have h2 := this a false (fun _ => rfl) ha
  rw [← he, hn] at h2
  cases h2

/-- `select x, y where z = 1 limit 9`. -/
def exQuery : Query where
  sel := ['s', 'e', 'l', 'e', 'c', 't', ' ', 'x', ' ']
  clauses := [(.where, [' ', 'z', '=', '1', ' ']), (.limit, [' ', '9'])]

theorem exQuery_clean : exQuery.Clean where
  sel := noKw_of_find (by decide)
  ends := fun _ c hc => by cases hc; decide
  clauses := ⟨⟨' ', _, rfl, by decide⟩, noKw_of_find (by decide), fun _ c hc => (by cases hc; decide), by decide, ⟨' ', _, rfl, by decide⟩, noKw_of_find (by decide), by simp, by simp, trivial⟩

theorem exQuery_free : exQuery.WhereFree := by
  intro b hb
  simp only [exQuery, List.mem_cons, Prod.mk.injEq, true_and, List.not_mem_nil, or_false, reduceCtorEq, false_and] at hb
  subst hb
  intro a k b he hk
  have hlen : k.length ≤ 5 ∧ ∀ c ∈ k, c ∈ [' ', 'z', '=', '1', ' '] := by
    refine ⟨?_, fun c hc => ?_⟩
    · have := congrArg List.length he
      simp at this; omega
    · rw [he]; simp [hc]
  rcases hk with ⟨rfl, _⟩ | rfl | rfl | ⟨rfl, _⟩
  · exact absurd hlen.2 (by decide)
  · exact absurd hlen.2 (by decide)
  · exact absurd hlen.2 (by decide)
  · exact absurd hlen.2 (by decide)

example : exQuery.print = "select x where z=1 limit 9".toList ∧
    adjust (some ['t']) (some ['u']) exQuery.print = "select x  from t where (u) and (z=1 ) limit 9".toList := by decide +kernel

example : TableName ['t'] := ⟨⟨by decide, by decide⟩, by intro k; cases k <;> decide⟩

example : plotOrder exQuery.print = "select x where z=1  order by x limit  9".toList := by decide +kernel

/-- C178 is false in general: `border` in a condition is taken for `order`, and the text is cut within the name. -/
theorem adjust_border_false :
    adjust none (some "u".toList) "select x from t where border > 1".toList = "select x from t where (u) and (b) order > 1".toList := by decide +kernel

/-- C178 is false in general: keywords in upper case are not seen. -/
theorem adjust_upper_false :
    adjust (some "t".toList) (some "u".toList) "select x FROM s WHERE y".toList = "select x FROM s WHERE y from t where (u)".toList := by decide +kernel

/-- C178 is false in general: a keyword within a string is taken for a clause. -/
theorem adjust_string_false :
    adjust (some "t".toList) none "select x, 'made from y'".toList = "select x, 'made from y'".toList ∧
    adjust none (some "u".toList) "select 'first limit' from t".toList = "select 'first  where (u) limit' from t".toList := by decide +kernel

end Verif.Mercury
