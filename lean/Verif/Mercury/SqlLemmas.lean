import Verif.Mercury.Sql

/-!
# Specification and lemmas: words and clauses of a query
-/

namespace Verif.Mercury

/-! ## Specification -/

/-- The text does not end within a word. -/
def EndsFree (t : Text) : Prop := ∀ c, t.getLast? = some c → isWord c = false

/-- The text does not begin with a character of a word. -/
def StartsFree (t : Text) : Prop := ∀ c, t.head? = some c → isWord c = false

/-- The word occurs in the text. -/
def Occurs (kw t : Text) : Prop := ∃ a b, t = a ++ kw ++ b ∧ EndsFree a ∧ StartsFree b

/-- The clauses of a query. -/
inductive Kw where
  | from | where | group | having | order | limit
deriving DecidableEq, Repr

def Kw.text : Kw → Text
  | .from => kFrom
  | .where => kWhere
  | .group => kGroup
  | .having => kHaving
  | .order => kOrder
  | .limit => kLimit

/-- The order of the clauses in SQL. -/
def Kw.rank : Kw → Nat
  | .from => 0
  | .where => 1
  | .group => 2
  | .having => 3
  | .order => 4
  | .limit => 5

/-- A query: the text of the selection and the clauses; the texts have the blanks around them. -/
structure Query where
  sel : Text
  clauses : List (Kw × Text)

def printClauses (cs : List (Kw × Text)) : Text := cs.flatMap fun c => c.1.text ++ c.2

def Query.print (q : Query) : Text := q.sel ++ printClauses q.clauses

/-- No keyword is a word of the text. -/
def NoKw (t : Text) : Prop := ∀ k : Kw, ¬ Occurs k.text t

/-- The clauses are in order, keywords and texts are separated, and keywords are used as such only. -/
def CleanClauses : List (Kw × Text) → Prop
  | [] => True
  | (k, b) :: cs => (∃ c r, b = c :: r ∧ isSpace c = true) ∧ NoKw b ∧ (cs ≠ [] → EndsFree b) ∧ (∀ d ∈ cs, k.rank < d.1.rank) ∧ CleanClauses cs

structure Query.Clean (q : Query) : Prop where
  sel : NoKw q.sel
  ends : q.clauses ≠ [] → EndsFree q.sel
  clauses : CleanClauses q.clauses

/-! ## Words -/

theorem isSpace_not_word {c : Char} (h : isSpace c = true) : isWord c = false := by
  unfold isSpace at h
  rw [Bool.or_eq_true, beq_iff_eq, beq_iff_eq] at h
  rcases h with rfl | rfl <;> decide

theorem startsWord_false {t : Text} : startsWord t = false ↔ StartsFree t := by
  cases t with
  | nil => simp [startsWord, StartsFree]
  | cons c r => simp [startsWord, StartsFree]

theorem endsFree_nil : EndsFree [] := fun _ h => by cases h

theorem startsFree_nil : StartsFree [] := fun _ h => by cases h

theorem endsFree_append {a b : Text} (hb : EndsFree b) (h : b ≠ []) : EndsFree (a ++ b) := by
  intro c hc
  rw [List.getLast?_append] at hc
  cases hl : b.getLast? with
  | none => rw [List.getLast?_eq_none_iff] at hl; exact absurd hl h
  | some d => rw [hl] at hc; exact hb c (by rw [hl]; simpa using hc)

theorem endsFree_right {a b : Text} (h : EndsFree (a ++ b)) (_ : b ≠ []) : EndsFree b := by
  intro c hc
  refine h c ?_
  rw [List.getLast?_append, hc]
  rfl

theorem startsFree_left {a b : Text} (h : StartsFree (a ++ b)) : a ≠ [] → StartsFree a := by
  intro ha c hc
  refine h c ?_
  cases a with
  | nil => exact absurd rfl ha
  | cons d r => simpa using hc

/-- All characters are of words, and there is one. -/
def Wordy (k : Text) : Prop := k ≠ [] ∧ ∀ c ∈ k, isWord c = true

theorem Kw.wordy (k : Kw) : Wordy k.text := by
  cases k <;> exact ⟨by decide, by decide⟩

theorem wordy_end {k m n : Text} (hk : Wordy k) (h : k = m ++ n) (hm : EndsFree m) : m = [] := by
  cases hl : m.getLast? with
  | none => exact List.getLast?_eq_none_iff.mp hl
  | some c =>
    have h1 := hm c hl
    have h2 : c ∈ k := by rw [h]; exact List.mem_append_left _ (List.mem_of_getLast? hl)
    rw [hk.2 c h2] at h1
    cases h1

theorem wordy_start {k m n : Text} (hk : Wordy k) (h : k = m ++ n) (hm : StartsFree n) : n = [] := by
  cases n with
  | nil => rfl
  | cons c r =>
    have h1 := hm c rfl
    have h2 : c ∈ k := by rw [h]; exact List.mem_append_right _ (List.mem_cons_self ..)
    rw [hk.2 c h2] at h1
    cases h1

/-- A word in a text of two parts with a border between them is in one of them. -/
theorem occurs_append {k a b : Text} (hk : Wordy k) (h : EndsFree a ∨ StartsFree b) (ho : Occurs k (a ++ b)) : Occurs k a ∨ Occurs k b := by
  obtain ⟨x, y, he, hx, hy⟩ := ho
  rw [List.append_assoc] at he
  rcases List.append_eq_append_iff.mp he with ⟨m, h1, h2⟩ | ⟨m, h1, h2⟩
  · -- x = a ++ m, b = m ++ (k ++ y)
    right
    refine ⟨m, y, by rw [h2, List.append_assoc], ?_, hy⟩
    by_cases hm : m = []
    · subst hm; exact endsFree_nil
    · rw [h1] at hx; exact endsFree_right hx hm
  · -- a = x ++ m, k ++ y = m ++ b
    rcases List.append_eq_append_iff.mp h2 with ⟨n, h3, h4⟩ | ⟨n, h3, h4⟩
    · -- m = k ++ n, y = n ++ b
      left
      refine ⟨x, n, by rw [h1, h3, List.append_assoc], hx, ?_⟩
      by_cases hn : n = []
      · subst hn; exact startsFree_nil
      · rw [h4] at hy; exact startsFree_left hy hn
    · -- k = m ++ n, b = n ++ y
      rcases h with h | h
      · have hm : m = [] := by
          by_cases hm : m = []
          · exact hm
          · rw [h1] at h
            exact wordy_end hk h3 (endsFree_right h hm)
        subst hm
        right
        refine ⟨[], y, ?_, endsFree_nil, hy⟩
        rw [h4, h3]; rfl
      · have hn : n = [] := by
          by_cases hn : n = []
          · exact hn
          · rw [h4] at h
            exact wordy_start hk h3 (startsFree_left h hn)
        subst hn
        left
        rw [List.append_nil] at h3
        subst h3
        exact ⟨x, [], by rw [h1, List.append_nil], hx, startsFree_nil⟩

theorem findWord_some {k : Text} (hk : Wordy k) {prev : Bool} {t a b : Text} (h : findWord k prev t = some (a, b)) :
    t = a ++ k ++ b ∧ StartsFree b ∧ (a = [] → prev = false) ∧ EndsFree a := by
  induction t generalizing prev a b with
  | nil =>
    unfold findWord at h
    split at h
    · rename_i g
      rw [Bool.and_eq_true, List.isEmpty_iff] at g
      exact absurd g.2 hk.1
    · cases h
  | cons c r ih =>
    rw [findWord] at h
    split at h
    · rename_i g
      simp only [Option.some.injEq, Prod.mk.injEq] at h
      obtain ⟨rfl, rfl⟩ := h
      rw [Bool.and_eq_true, Bool.and_eq_true, Bool.not_eq_true', Bool.not_eq_true', List.isPrefixOf_iff_prefix] at g
      obtain ⟨⟨g1, y, g2⟩, g3⟩ := g
      refine ⟨?_, startsWord_false.mp g3, fun _ => g1, endsFree_nil⟩
      rw [← g2, List.drop_left]
      rfl
    · obtain ⟨⟨x, y⟩, hf, he⟩ := Option.map_eq_some_iff.mp h
      simp only [Prod.mk.injEq] at he
      obtain ⟨rfl, rfl⟩ := he
      obtain ⟨i1, i2, i3, i4⟩ := ih hf
      refine ⟨by rw [i1]; rfl, i2, fun h => (by cases h), ?_⟩
      by_cases hx : x = []
      · subst hx
        intro d hd
        simp only [List.getLast?_singleton, Option.some.injEq] at hd
        rw [← hd]; exact i3 rfl
      · exact endsFree_append (a := [c]) i4 hx

/-- The first occurrence is found. -/
theorem findWord_first {k : Text} (hk : Wordy k) {prev : Bool} {a b : Text} (hp : a = [] → prev = false) (ha : EndsFree a) (hb : StartsFree b) (hn : findWord k prev a = none) :
    findWord k prev (a ++ k ++ b) = some (a, b) := by
  induction a generalizing prev with
  | nil =>
    have hp := hp rfl
    subst hp
    cases k with
    | nil => exact absurd rfl hk.1
    | cons c r =>
      show findWord (c :: r) false (c :: (r ++ b)) = _
      rw [findWord, if_pos]
      · rw [show c :: (r ++ b) = (c :: r) ++ b from rfl, List.drop_left]
      · rw [show c :: (r ++ b) = (c :: r) ++ b from rfl, List.drop_left, startsWord_false.mpr hb]
        simp
  | cons c r ih =>
    rw [findWord] at hn
    split at hn
    · cases hn
    · rename_i g
      show findWord k prev (c :: (r ++ k ++ b)) = _
      rw [findWord, if_neg]
      · rw [ih (prev := isWord c)]
        · rfl
        · rintro rfl
          exact ha c rfl
        · by_cases hr : r = []
          · subst hr; exact endsFree_nil
          · exact endsFree_right (a := [c]) ha hr
        · cases hf : findWord k (isWord c) r with
          | none => rfl
          | some x => rw [hf] at hn; cases hn
      · intro h
        apply g
        rw [Bool.and_eq_true, Bool.and_eq_true, Bool.not_eq_true', Bool.not_eq_true', List.isPrefixOf_iff_prefix] at h ⊢
        obtain ⟨⟨g1, g2⟩, g3⟩ := h
        have e : c :: (r ++ k ++ b) = (c :: r) ++ (k ++ b) := by simp
        rw [e] at g2 g3
        obtain ⟨y, g2⟩ := g2
        rcases List.append_eq_append_iff.mp g2 with ⟨m, h1, h2⟩ | ⟨m, h1, h2⟩
        · -- c :: r = k ++ m
          refine ⟨⟨g1, m, h1.symm⟩, ?_⟩
          rw [h1, List.append_assoc, List.drop_left] at g3
          rw [h1, List.drop_left]
          cases m with
          | nil => rfl
          | cons d m => exact g3
        · -- k = (c :: r) ++ m
          exact absurd (wordy_end hk h1 ha) (by simp)

theorem findWord_none {k : Text} (hk : Wordy k) {t : Text} (h : ¬ Occurs k t) : findWord k false t = none := by
  cases hf : findWord k false t with
  | none => rfl
  | some x =>
    obtain ⟨a, b⟩ := x
    obtain ⟨h1, h2, h3, h4⟩ := findWord_some hk hf
    exact absurd ⟨a, b, h1, h4, h2⟩ h

/-! ## Clauses -/

theorem occurs_kw {k j : Kw} (h : Occurs k.text j.text) : k = j := by
  have hk := Kw.wordy k
  have hj := Kw.wordy j
  obtain ⟨a, b, h1, h2, h3⟩ := h
  have ha : a = [] := wordy_end hj (by rw [h1, List.append_assoc]) h2
  subst ha
  have hb : b = [] := wordy_start hj h1 h3
  subst hb
  rw [List.nil_append, List.append_nil] at h1
  revert h1
  cases k <;> cases j <;> decide

theorem startsFree_body {b : Text} (h : ∃ c r, b = c :: r ∧ isSpace c = true) : StartsFree b := by
  obtain ⟨c, r, rfl, hc⟩ := h
  intro d hd
  simp only [List.head?_cons, Option.some.injEq] at hd
  rw [← hd]; exact isSpace_not_word hc

/-- A keyword is in the printed clauses only if it is one of them. -/
theorem occurs_clauses {k : Kw} {cs : List (Kw × Text)} (hc : CleanClauses cs) (h : Occurs k.text (printClauses cs)) : ∃ c ∈ cs, c.1 = k := by
  induction cs with
  | nil =>
    obtain ⟨a, b, h1, _⟩ := h
    have : a ++ k.text ++ b = [] := h1.symm
    simp only [List.append_eq_nil_iff] at this
    exact absurd this.1.2 (Kw.wordy k).1
  | cons c cs ih =>
    obtain ⟨j, b⟩ := c
    obtain ⟨h1, h2, h3, h4, h5⟩ := hc
    have e : printClauses ((j, b) :: cs) = j.text ++ (b ++ printClauses cs) := by simp [printClauses]
    rw [e] at h
    have hsb : StartsFree (b ++ printClauses cs) := by
      obtain ⟨c, r, rfl, hsp⟩ := h1
      exact startsFree_body ⟨c, r ++ printClauses cs, rfl, hsp⟩
    rcases occurs_append (Kw.wordy k) (.inr hsb) h with h | h
    · exact ⟨(j, b), List.mem_cons_self .., (occurs_kw h).symm⟩
    · cases cs with
      | nil =>
        have : b ++ printClauses [] = b := by simp [printClauses]
        rw [this] at h
        exact absurd h (h2 k)
      | cons d ds =>
        rcases occurs_append (Kw.wordy k) (.inl (h3 (by simp))) h with h | h
        · exact absurd h (h2 k)
        · obtain ⟨c, hc, he⟩ := ih h5 h
          exact ⟨c, List.mem_cons_of_mem _ hc, he⟩

theorem occurs_print {k : Kw} {q : Query} (hq : q.Clean) (h : Occurs k.text q.print) : ∃ c ∈ q.clauses, c.1 = k := by
  unfold Query.print at h
  cases hc : q.clauses with
  | nil =>
    rw [hc] at h
    have : q.sel ++ printClauses [] = q.sel := by simp [printClauses]
    rw [this] at h
    exact absurd h (hq.sel k)
  | cons c cs =>
    rcases occurs_append (Kw.wordy k) (.inl (hq.ends (by rw [hc]; simp))) h with h | h
    · exact absurd h (hq.sel k)
    · rw [← hc]; exact occurs_clauses hq.clauses h

/-- The clauses before one, with the selection, are a clean query. -/
theorem clean_before {pre post : List (Kw × Text)} {k : Kw} {b : Text} (h : CleanClauses (pre ++ (k, b) :: post)) :
    CleanClauses pre ∧ EndsFree (printClauses pre) ∧ (∀ c ∈ pre, c.1.rank < k.rank) ∧ CleanClauses ((k, b) :: post) := by
  induction pre with
  | nil => exact ⟨trivial, endsFree_nil, fun _ h => (by cases h), h⟩
  | cons c pre ih =>
    obtain ⟨j, d⟩ := c
    obtain ⟨h1, h2, h3, h4, h5⟩ := h
    obtain ⟨i1, i2, i3, i4⟩ := ih h5
    refine ⟨⟨h1, h2, fun _ => h3 (by simp), fun x hx => h4 x (List.mem_append_left _ hx), i1⟩, ?_, ?_, i4⟩
    · have e : printClauses ((j, d) :: pre) = j.text ++ d ++ printClauses pre := by simp [printClauses]
      rw [e]
      by_cases hp : printClauses pre = []
      · rw [hp, List.append_nil]
        obtain ⟨x, r, rfl, _⟩ := h1
        exact endsFree_append (h3 (by simp)) (by simp)
      · exact endsFree_append i2 hp
    · intro x hx
      rcases List.mem_cons.mp hx with rfl | hx
      · exact h4 (k, b) (List.mem_append_right _ (List.mem_cons_self ..))
      · exact i3 x hx

/-- The keyword of a clause is found where it is. -/
theorem findWord_clause {q : Query} (hq : q.Clean) {pre post : List (Kw × Text)} {k : Kw} {b : Text} (hc : q.clauses = pre ++ (k, b) :: post) :
    findWord k.text false q.print = some (q.sel ++ printClauses pre, b ++ printClauses post) := by
  have hcl := hq.clauses
  rw [hc] at hcl
  obtain ⟨h1, h2, h3, h4⟩ := clean_before hcl
  have he : q.print = (q.sel ++ printClauses pre) ++ k.text ++ (b ++ printClauses post) := by
    unfold Query.print; rw [hc]; simp [printClauses]
  have hends : EndsFree (q.sel ++ printClauses pre) := by
    by_cases hp : printClauses pre = []
    · rw [hp, List.append_nil]; exact hq.ends (by rw [hc]; simp)
    · exact endsFree_append h2 hp
  have hstart : StartsFree (b ++ printClauses post) := by
    obtain ⟨⟨x, r, rfl, hs⟩, _⟩ := h4
    exact startsFree_body ⟨x, r ++ printClauses post, rfl, hs⟩
  rw [he]
  refine findWord_first (Kw.wordy k) (fun _ => rfl) hends hstart (findWord_none (Kw.wordy k) ?_)
  intro ho
  obtain ⟨c, hcm, rfl⟩ := occurs_print (q := ⟨q.sel, pre⟩) ⟨hq.sel, fun hne => hq.ends (by rw [hc]; simp), h1⟩ ho
  exact absurd (h3 c hcm) (by omega)

theorem findWord_absent {q : Query} (hq : q.Clean) {k : Kw} (hc : ∀ c ∈ q.clauses, c.1 ≠ k) : findWord k.text false q.print = none :=
  findWord_none (Kw.wordy k) fun h => by
    obtain ⟨c, hm, he⟩ := occurs_print hq h
    exact hc c hm he

end Verif.Mercury
