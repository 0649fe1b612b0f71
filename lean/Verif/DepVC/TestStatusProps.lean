import Verif.DepVC.TestStatus

/-! # deptool test: the status of a test (C246) -/

namespace Verif.DepVC.TestStatus

open Verif.Deptool.Deps (Text isWord)
open Verif.DepVC.Ctest (isSpace strip number projectLine)

/-! ## Specification -/

/-- White space. -/
def Blank (t : Text) : Prop := ∀ c ∈ t, c ∈ [' ', '\t', '\n', '\r', '\x0c', '\x0b']

/-- No white space, not empty. -/
def Solid (t : Text) : Prop := t ≠ [] ∧ ∀ c ∈ t, c ∉ [' ', '\t', '\n', '\r', '\x0c', '\x0b']

/-- A number. -/
def Digits (t : Text) : Prop := t ≠ [] ∧ ∀ c ∈ t, c.isDigit = true

/-- The line with the status that ctest 2.4 and 2.6 print. -/
def OldForm (l name status : Text) : Prop :=
  ∃ pad num gap tail : Text, l = pad ++ (num ++ ([' ', 'T', 'e', 's', 't', 'i', 'n', 'g', ' '] ++ (name ++ (gap ++ (status ++ tail))))) ∧
    Blank pad ∧ Digits num ∧ Blank gap ∧ gap ≠ [] ∧ Solid status ∧ Blank tail ∧ (∀ x c, name = x ++ [c] → ¬ Blank [c])

/-- The line with the status that ctest 2.8 prints: behind the name come at least two characters, then white space and the status, then the time. -/
def NewForm (l name status : Text) : Prop :=
  ∃ pad num num2 sp fill gap d1 d2 : Text, ∃ c c2 : Char,
    l = pad ++ (num ++ ([' ', 'T', 'e', 's', 't', ' ', '#'] ++ (num2 ++ ([':', ' '] ++ (name ++ ((sp ++ c2 :: fill) ++ c :: (status ++ (gap ++ (d1 ++ '.' :: (d2 ++ [' ', 's', 'e', 'c'])))))))))) ∧
    Blank pad ∧ Digits num ∧ Digits num2 ∧ Solid name ∧ Blank sp ∧ sp ≠ [] ∧ Blank [c] ∧
    status ≠ [] ∧ (∀ x ∈ status, x.isAlphanum = true ∨ x = '_') ∧ Blank gap ∧ gap ≠ [] ∧ Digits d1 ∧ Digits d2

/-- A count: blanks, a number and a slash. -/
def CountForm (l num : Text) : Prop := ∃ pad : Text, l = pad ++ (num ++ ['/']) ∧ Blank pad ∧ Digits num

/-- The start of a test in ctest 2.8. -/
def StartForm (l num : Text) : Prop :=
  ∃ pad rest : Text, l = pad ++ (['S', 't', 'a', 'r', 't', ' '] ++ (num ++ ([':', ' '] ++ rest))) ∧ Blank pad ∧ pad ≠ [] ∧ Digits num

/-- The first line of the file. -/
def ProjectForm (l : Text) : Prop := ∃ dir : Text, l = ['T', 'e', 's', 't', ' ', 'p', 'r', 'o', 'j', 'e', 'c', 't', ' '] ++ dir ∧ Solid dir

/-- The value of a number. -/
def value (t : Text) : Nat := t.foldl (fun n c => 10 * n + (c.toNat - '0'.toNat)) 0

/-! ## Lemmas -/

theorem space_iff (c : Char) : isSpace c = true ↔ c ∈ [' ', '\t', '\n', '\r', '\x0c', '\x0b'] := by
  simp [isSpace, or_assoc]

theorem blank_iff (t : Text) : Blank t ↔ ∀ c ∈ t, isSpace c = true := by
  unfold Blank
  simp only [space_iff]

theorem solid_iff (t : Text) : Solid t ↔ t ≠ [] ∧ ∀ c ∈ t, isSolid c = true := by
  unfold Solid isSolid
  simp only [Bool.not_eq_true', ← Bool.not_eq_true, space_iff]

theorem mem_take {f : Char → Bool} (t : Text) : ∀ c ∈ t.takeWhile f, f c = true := by
  induction t with
  | nil => intro c h; cases h
  | cons a t ih =>
    intro c h
    rw [List.takeWhile_cons] at h
    split at h
    · rcases List.mem_cons.mp h with rfl | h
      · assumption
      · exact ih c h
    · cases h

theorem drop_head {f : Char → Bool} (t : Text) : ∀ c r, t.dropWhile f = c :: r → f c = false := by
  induction t with
  | nil => intro c r h; cases h
  | cons a t ih =>
    intro c r h
    rw [List.dropWhile_cons] at h
    split at h
    · exact ih c r h
    · rename_i hf
      cases h
      simpa using hf

theorem span_eq {f : Char → Bool} (a b : Text) (ha : ∀ c ∈ a, f c = true) (hb : ∀ c r, b = c :: r → f c = false) :
    (a ++ b).takeWhile f = a ∧ (a ++ b).dropWhile f = b := by
  induction a with
  | nil =>
    cases b with
    | nil => exact ⟨rfl, rfl⟩
    | cons c r =>
      have := hb c r rfl
      simp [this]
  | cons x a ih =>
    have hx := ha x (by simp)
    have := ih (fun c hc => ha c (by simp [hc]))
    simp [hx, this]

theorem strip_iff (p t r : Text) : strip p t = some r ↔ t = p ++ r := by
  unfold strip
  constructor
  · intro h
    split at h
    · rename_i hp
      obtain ⟨u, rfl⟩ := List.isPrefixOf_iff_prefix.mp hp
      simp at h
      rw [h]
    · cases h
  · rintro rfl
    simp

theorem digit_not_space (c : Char) (h : c.isDigit = true) : isSpace c = false := by
  cases hs : isSpace c with
  | false => rfl
  | true =>
    rw [space_iff] at hs
    simp only [List.mem_cons, List.not_mem_nil, or_false] at hs
    rcases hs with rfl | rfl | rfl | rfl | rfl | rfl <;> revert h <;> decide

theorem word_not_space (c : Char) (h : isWord c = true) : isSpace c = false := by
  cases hs : isSpace c with
  | false => rfl
  | true =>
    rw [space_iff] at hs
    simp only [List.mem_cons, List.not_mem_nil, or_false] at hs
    rcases hs with rfl | rfl | rfl | rfl | rfl | rfl <;> revert h <;> decide

theorem leading_iff (t d r : Text) : leading t = some (d, r) ↔
    ∃ pad, t = pad ++ (d ++ r) ∧ Blank pad ∧ Digits d ∧ ∀ c u, r = c :: u → c.isDigit = false := by
  unfold leading
  constructor
  · intro h
    simp only at h
    split at h
    · cases h
    · rename_i hne
      simp only [Option.some.injEq, Prod.mk.injEq] at h
      obtain ⟨rfl, rfl⟩ := h
      refine ⟨t.takeWhile isSpace, ?_, ?_, ⟨hne, mem_take _⟩, drop_head _⟩
      · rw [List.takeWhile_append_dropWhile, List.takeWhile_append_dropWhile]
      · rw [blank_iff]
        exact mem_take _
  · rintro ⟨pad, rfl, hp, hd, hr⟩
    have h1 := span_eq (f := isSpace) pad (d ++ r) ((blank_iff _).mp hp) (by
      intro c u h
      cases hd' : d with
      | nil => exact absurd hd' hd.1
      | cons x xs =>
        rw [hd'] at h
        simp only [List.cons_append, List.cons.injEq] at h
        rw [← h.1]
        exact digit_not_space x (hd.2 x (by rw [hd']; simp)))
    have h2 := span_eq (f := Char.isDigit) d r hd.2 hr
    simp only [h1.2, h2.1, h2.2]
    rw [if_neg hd.1]

theorem count_iff (l d : Text) : countLine l = some d ↔ CountForm l d := by
  unfold countLine CountForm
  constructor
  · intro h
    split at h
    · rename_i d' he
      simp only [Option.some.injEq] at h
      subst h
      obtain ⟨pad, h1, h2, h3, -⟩ := (leading_iff _ _ _).mp he
      exact ⟨pad, h1, h2, h3⟩
    · cases h
  · rintro ⟨pad, h1, h2, h3⟩
    have : leading l = some (d, ['/']) := (leading_iff _ _ _).mpr ⟨pad, h1, h2, h3, by
      intro c u h
      simp only [List.cons.injEq] at h
      rw [← h.1]
      decide⟩
    rw [this]
    rfl

theorem start_iff (l d : Text) : startLine l = some d ↔ StartForm l d := by
  unfold startLine StartForm
  constructor
  · intro h
    split at h
    · cases h
    · rename_i hne
      split at h
      · cases h
      · rename_i t ht
        rw [strip_iff] at ht
        split at h
        · cases h
        · rename_i hd
          split at h
          · cases h
          · rename_i r hr
            rw [strip_iff] at hr
            simp only [Option.some.injEq] at h
            subst h
            refine ⟨l.takeWhile isSpace, r, ?_, ?_, hne, hd, mem_take _⟩
            · rw [← hr, List.takeWhile_append_dropWhile, ← ht, List.takeWhile_append_dropWhile]
            · rw [blank_iff]
              exact mem_take _
  · rintro ⟨pad, rest, rfl, h2, h3, h4⟩
    have h1 := span_eq (f := isSpace) pad (['S', 't', 'a', 'r', 't', ' '] ++ (d ++ ([':', ' '] ++ rest))) ((blank_iff _).mp h2) (by
      intro c u h
      simp only [List.cons_append, List.cons.injEq] at h
      rw [← h.1]
      decide)
    rw [h1.1, h1.2, if_neg h3]
    rw [(strip_iff _ _ _).mpr rfl]
    have h5 := span_eq (f := Char.isDigit) d ([':', ' '] ++ rest) h4.2 (by
      intro c u h
      simp only [List.cons_append, List.cons.injEq] at h
      rw [← h.1]
      decide)
    simp only [h5.1, h5.2]
    rw [if_neg h4.1, (strip_iff _ _ _).mpr rfl]

theorem project_iff (l : Text) : projectLine l = true ↔ ProjectForm l := by
  unfold projectLine ProjectForm
  constructor
  · intro h
    split at h
    · cases h
    · rename_i t ht
      refine ⟨t, (strip_iff _ _ _).mp ht, ?_⟩
      rw [solid_iff]
      simpa [isSolid] using h
  · rintro ⟨dir, rfl, hd⟩
    have : strip Ctest.projectText (['T', 'e', 's', 't', ' ', 'p', 'r', 'o', 'j', 'e', 'c', 't', ' '] ++ dir) = some dir := (strip_iff _ _ _).mpr rfl
    rw [this]
    rw [solid_iff] at hd
    simpa [isSolid] using hd

theorem lastWord_iff (t n s : Text) : lastWord t = some (n, s) ↔
    ∃ gap tail, t = n ++ (gap ++ (s ++ tail)) ∧ Blank gap ∧ gap ≠ [] ∧ Solid s ∧ Blank tail ∧ (∀ x c, n = x ++ [c] → ¬ Blank [c]) := by
  unfold lastWord
  constructor
  · intro h
    simp only at h
    split at h
    · cases h
    · rename_i hne
      simp only [not_or] at hne
      simp only [Option.some.injEq, Prod.mk.injEq] at h
      obtain ⟨hn, hs⟩ := h
      let r := t.reverse.dropWhile isSpace
      let b := r.dropWhile isSolid
      have e1 : t.reverse = t.reverse.takeWhile isSpace ++ r := (List.takeWhile_append_dropWhile).symm
      have e2 : r = r.takeWhile isSolid ++ b := (List.takeWhile_append_dropWhile).symm
      have e3 : b = b.takeWhile isSpace ++ b.dropWhile isSpace := (List.takeWhile_append_dropWhile).symm
      refine ⟨(b.takeWhile isSpace).reverse, (t.reverse.takeWhile isSpace).reverse, ?_, ?_, ?_, ?_, ?_, ?_⟩
      · rw [← hn, ← hs]
        have e : t.reverse = t.reverse.takeWhile isSpace ++ (r.takeWhile isSolid ++ (b.takeWhile isSpace ++ b.dropWhile isSpace)) := by
          rw [← e3, ← e2, ← e1]
        have e' := congrArg List.reverse e
        simp only [List.reverse_append, List.reverse_reverse, List.append_assoc] at e'
        exact e'
      · rw [blank_iff]
        intro c hc
        exact mem_take _ c (List.mem_reverse.mp hc)
      · intro he
        have he : b.takeWhile isSpace = [] := List.reverse_eq_nil_iff.mp he
        cases hb : b with
        | nil => exact hne.2 hb
        | cons c u =>
          have := drop_head r c u hb
          unfold isSolid at this
          simp only [Bool.not_eq_false'] at this
          rw [hb, List.takeWhile_cons, if_pos this] at he
          cases he
      · rw [solid_iff, ← hs]
        refine ⟨fun h => hne.1 (List.reverse_eq_nil_iff.mp h), ?_⟩
        intro c hc
        exact mem_take _ c (List.mem_reverse.mp hc)
      · rw [blank_iff]
        intro c hc
        exact mem_take _ c (List.mem_reverse.mp hc)
      · intro x c hx hb
        rw [← hn] at hx
        have hx : b.dropWhile isSpace = c :: x.reverse := by
          have := congrArg List.reverse hx
          simpa using this
        have := drop_head b c _ hx
        rw [blank_iff] at hb
        rw [hb c (by simp)] at this
        cases this
  · rintro ⟨gap, tail, rfl, h1, h2, h3, h4, h5⟩
    rw [blank_iff] at h1 h4
    rw [solid_iff] at h3
    have hrev : (n ++ (gap ++ (s ++ tail))).reverse = tail.reverse ++ (s.reverse ++ (gap.reverse ++ n.reverse)) := by simp
    have e1 := span_eq (f := isSpace) tail.reverse (s.reverse ++ (gap.reverse ++ n.reverse))
      (fun c hc => h4 c (List.mem_reverse.mp hc)) (by
        intro c r h
        cases hs : s.reverse with
        | nil => exact absurd (List.reverse_eq_nil_iff.mp hs) h3.1
        | cons x xs =>
          rw [hs] at h
          simp only [List.cons_append, List.cons.injEq] at h
          have := h3.2 x (List.mem_reverse.mp (by rw [hs]; simp))
          rw [← h.1]
          simpa [isSolid] using this)
    have e2 := span_eq (f := isSolid) s.reverse (gap.reverse ++ n.reverse)
      (fun c hc => h3.2 c (List.mem_reverse.mp hc)) (by
        intro c r h
        cases hs : gap.reverse with
        | nil => exact absurd (List.reverse_eq_nil_iff.mp hs) h2
        | cons x xs =>
          rw [hs] at h
          simp only [List.cons_append, List.cons.injEq] at h
          have := h1 x (List.mem_reverse.mp (by rw [hs]; simp))
          rw [← h.1]
          simpa [isSolid] using this)
    have e3 := span_eq (f := isSpace) gap.reverse n.reverse
      (fun c hc => h1 c (List.mem_reverse.mp hc)) (by
        intro c r h
        have hn : n = r.reverse ++ [c] := by
          have := congrArg List.reverse h
          simpa using this
        have := h5 _ _ hn
        rw [blank_iff] at this
        simpa using this)
    simp only [hrev, e1.2, e2.1, e2.2, e3.2, List.reverse_reverse]
    rw [if_neg]
    intro h
    rcases h with h | h
    · exact h3.1 (List.reverse_eq_nil_iff.mp h)
    · exact h2 (List.reverse_eq_nil_iff.mp (List.append_eq_nil_iff.mp h).1)

/-! ## C246 -/

/-- The pattern for ctest 2.4 and 2.6 finds name and status exactly in lines of that form. -/
theorem old_iff (l n s : Text) : oldStatus l = some (n, s) ↔ OldForm l n s := by
  unfold oldStatus OldForm
  constructor
  · intro h
    split at h
    · cases h
    · rename_i d r hl
      split at h
      · cases h
      · rename_i t ht
        obtain ⟨pad, rfl, h2, h3, -⟩ := (leading_iff _ _ _).mp hl
        rw [strip_iff] at ht
        subst ht
        obtain ⟨gap, tail, rfl, h5⟩ := (lastWord_iff _ _ _).mp h
        exact ⟨pad, d, gap, tail, rfl, h2, h3, h5⟩
  · rintro ⟨pad, num, gap, tail, rfl, h2, h3, h4⟩
    rw [(leading_iff _ _ _).mpr ⟨pad, rfl, h2, h3, by
      intro c u h
      simp only [List.cons_append, List.cons.injEq] at h
      rw [← h.1]
      decide⟩]
    simp only
    rw [(strip_iff _ _ _).mpr rfl]
    exact (lastWord_iff _ _ _).mpr ⟨gap, tail, rfl, h4⟩

theorem word_iff (c : Char) : isWord c = true ↔ c.isAlphanum = true ∨ c = '_' := by
  simp [isWord]

/-- What `timed` says about a text that ends with a word and a time. -/
theorem timed_eq (fill : Text) (c : Char) (s gap d1 d2 : Text) (hs : s ≠ []) (hw : ∀ x ∈ s, isWord x = true) (hc : isWord c = false)
    (hg : Blank gap) (hg0 : gap ≠ []) (h1 : Digits d1) (h2 : Digits d2) :
    timed (fill ++ c :: (s ++ (gap ++ (d1 ++ '.' :: (d2 ++ [' ', 's', 'e', 'c']))))) =
      if isSpace c = true ∧ 2 ≤ fill.length ∧ (fill.head?.any isSpace) = true then some s else none := by
  rw [blank_iff] at hg
  have hrev : (fill ++ c :: (s ++ (gap ++ (d1 ++ '.' :: (d2 ++ [' ', 's', 'e', 'c']))))).reverse =
      ['c', 'e', 's', ' '] ++ (d2.reverse ++ ('.' :: (d1.reverse ++ (gap.reverse ++ (s.reverse ++ (c :: fill.reverse)))))) := by simp
  unfold timed
  rw [hrev, (strip_iff _ _ _).mpr rfl]
  have e2 := span_eq (f := Char.isDigit) d2.reverse ('.' :: (d1.reverse ++ (gap.reverse ++ (s.reverse ++ (c :: fill.reverse)))))
    (fun x hx => h2.2 x (List.mem_reverse.mp hx)) (by
      intro x r h
      simp only [List.cons.injEq] at h
      rw [← h.1]
      decide)
  have e1 := span_eq (f := Char.isDigit) d1.reverse (gap.reverse ++ (s.reverse ++ (c :: fill.reverse)))
    (fun x hx => h1.2 x (List.mem_reverse.mp hx)) (by
      intro x r h
      cases hg' : gap.reverse with
      | nil => exact absurd (List.reverse_eq_nil_iff.mp hg') hg0
      | cons y ys =>
        rw [hg'] at h
        simp only [List.cons_append, List.cons.injEq] at h
        have := hg y (List.mem_reverse.mp (by rw [hg']; simp))
        rw [← h.1]
        cases hd : y.isDigit with
        | false => rfl
        | true => rw [digit_not_space y hd] at this; cases this)
  have eg := span_eq (f := isSpace) gap.reverse (s.reverse ++ (c :: fill.reverse))
    (fun x hx => hg x (List.mem_reverse.mp hx)) (by
      intro x r h
      cases hs' : s.reverse with
      | nil => exact absurd (List.reverse_eq_nil_iff.mp hs') hs
      | cons y ys =>
        rw [hs'] at h
        simp only [List.cons_append, List.cons.injEq] at h
        rw [← h.1]
        exact word_not_space y (hw y (List.mem_reverse.mp (by rw [hs']; simp))))
  have es := span_eq (f := isWord) s.reverse (c :: fill.reverse)
    (fun x hx => hw x (List.mem_reverse.mp hx)) (by
      intro x r h
      simp only [List.cons.injEq] at h
      rw [← h.1]
      exact hc)
  simp only [e2.1, e2.2, e1.1, e1.2, eg.1, eg.2, es.1, es.2]
  rw [if_neg (fun h => h2.1 (List.reverse_eq_nil_iff.mp h))]
  rw [if_neg (fun h => h.elim (fun h => h1.1 (List.reverse_eq_nil_iff.mp h)) (fun h => hg0 (List.reverse_eq_nil_iff.mp h)))]
  rw [if_neg (fun h => hs (List.reverse_eq_nil_iff.mp h))]
  simp only [List.length_reverse, List.getLast?_reverse, List.reverse_reverse]

theorem timed_some (t s : Text) (h : timed t = some s) :
    ∃ fill c gap d1 d2, t = fill ++ c :: (s ++ (gap ++ (d1 ++ '.' :: (d2 ++ [' ', 's', 'e', 'c'])))) ∧
      s ≠ [] ∧ (∀ x ∈ s, isWord x = true) ∧ isSpace c = true ∧ Blank gap ∧ gap ≠ [] ∧ Digits d1 ∧ Digits d2 ∧
      2 ≤ fill.length ∧ (fill.head?.any isSpace) = true := by
  unfold timed at h
  split at h
  · cases h
  · rename_i r1 hr1
    rw [strip_iff] at hr1
    split at h
    · cases h
    · rename_i hd2
      split at h
      · rename_i r2 hr2
        split at h
        · cases h
        · rename_i hd1
          simp only [not_or] at hd1
          simp only at h
          split at h
          · cases h
          · rename_i hw
            split at h
            · rename_i c fill hf
              split at h
              · rename_i hc
                simp only [Option.some.injEq] at h
                subst h
                refine ⟨fill.reverse, c, ((r2.dropWhile Char.isDigit).takeWhile isSpace).reverse, (r2.takeWhile Char.isDigit).reverse,
                  (r1.takeWhile Char.isDigit).reverse, ?_, ?_, ?_, hc.1, ?_, ?_, ⟨?_, ?_⟩, ⟨?_, ?_⟩, ?_, ?_⟩
                · have e1 : r1 = r1.takeWhile Char.isDigit ++ '.' :: r2 := by
                    rw [← hr2, List.takeWhile_append_dropWhile]
                  have e2 : r2 = r2.takeWhile Char.isDigit ++ ((r2.dropWhile Char.isDigit).takeWhile isSpace ++
                      (((r2.dropWhile Char.isDigit).dropWhile isSpace).takeWhile isWord ++ c :: fill)) := by
                    rw [← hf, List.takeWhile_append_dropWhile, List.takeWhile_append_dropWhile, List.takeWhile_append_dropWhile]
                  have : t = t.reverse.reverse := (List.reverse_reverse t).symm
                  rw [this, hr1]
                  conv => lhs; rw [e1, e2]
                  simp
                · exact fun h => hw (List.reverse_eq_nil_iff.mp h)
                · intro x hx
                  exact mem_take _ x (List.mem_reverse.mp hx)
                · rw [blank_iff]
                  intro x hx
                  exact mem_take _ x (List.mem_reverse.mp hx)
                · exact fun h => hd1.2 (List.reverse_eq_nil_iff.mp h)
                · exact fun h => hd1.1 (List.reverse_eq_nil_iff.mp h)
                · intro x hx
                  exact mem_take _ x (List.mem_reverse.mp hx)
                · exact fun h => hd2 (List.reverse_eq_nil_iff.mp h)
                · intro x hx
                  exact mem_take _ x (List.mem_reverse.mp hx)
                · simpa using hc.2.1
                · simpa using hc.2.2
              · cases h
            · cases h
      · cases h

/-- The pattern for ctest 2.8 finds name and status exactly in lines of that form. -/
theorem new_iff (l n s : Text) : newStatus l = some (n, s) ↔ NewForm l n s := by
  unfold newStatus NewForm
  constructor
  · intro h
    split at h
    · cases h
    · rename_i d r hl
      split at h
      · cases h
      · rename_i t ht
        split at h
        · cases h
        · rename_i hd
          split at h
          · cases h
          · rename_i u hu
            split at h
            · cases h
            · rename_i hn
              split at h
              · cases h
              · rename_i s' hs
                simp only [Option.some.injEq, Prod.mk.injEq] at h
                obtain ⟨rfl, rfl⟩ := h
                obtain ⟨pad, rfl, h2, h3, -⟩ := (leading_iff _ _ _).mp hl
                rw [strip_iff] at ht hu
                obtain ⟨fill, c, gap, d1, d2, hf, f1, f2, f3, f4, f5, f6, f7, f8, f9⟩ := timed_some _ _ hs
                match fill, f8, f9 with
                | x :: y :: fill, _, f9 =>
                  refine ⟨pad, d, t.takeWhile Char.isDigit, [x], fill, gap, d1, d2, c, y, ?_, h2, h3, ⟨hd, mem_take _⟩, ?_, ?_, by simp, ?_, f1, ?_, f4, f5, f6, f7⟩
                  · have e1 : u = u.takeWhile isSolid ++ (x :: y :: fill ++ c :: (s' ++ (gap ++ (d1 ++ '.' :: (d2 ++ [' ', 's', 'e', 'c']))))) := by
                      rw [← hf, List.takeWhile_append_dropWhile]
                    have e2 : t = t.takeWhile Char.isDigit ++ ([':', ' '] ++ u) := by
                      rw [← hu, List.takeWhile_append_dropWhile]
                    rw [ht]
                    conv => lhs; rw [e2, e1]
                    rfl
                  · rw [solid_iff]
                    exact ⟨hn, mem_take _⟩
                  · rw [blank_iff]
                    intro z hz
                    simp only [List.mem_cons, List.not_mem_nil, or_false] at hz
                    subst hz
                    simpa using f9
                  · rw [blank_iff]
                    intro z hz
                    simp only [List.mem_cons, List.not_mem_nil, or_false] at hz
                    subst hz
                    exact f3
                  · intro z hz
                    exact (word_iff z).mp (f2 z hz)
  · rintro ⟨pad, num, num2, sp, fill, gap, d1, d2, c, c2, rfl, h2, h3, h4, h5, h6, h7, h8, h9, h10, h11, h12, h13, h14⟩
    rw [(leading_iff _ _ _).mpr ⟨pad, rfl, h2, h3, by
      intro c u h
      simp only [List.cons_append, List.cons.injEq] at h
      rw [← h.1]
      decide⟩]
    simp only
    rw [(strip_iff _ _ _).mpr rfl]
    have e1 := span_eq (f := Char.isDigit) num2 ([':', ' '] ++ (n ++ ((sp ++ c2 :: fill) ++ c :: (s ++ (gap ++ (d1 ++ '.' :: (d2 ++ [' ', 's', 'e', 'c']))))))) h4.2 (by
      intro c u h
      simp only [List.cons_append, List.cons.injEq] at h
      rw [← h.1]
      decide)
    simp only [e1.1, e1.2]
    rw [if_neg h4.1, (strip_iff _ _ _).mpr rfl]
    rw [solid_iff] at h5
    have hsp := (blank_iff _).mp h6
    cases sp with
    | nil => exact absurd rfl h7
    | cons x sp =>
      have hx := hsp x (by simp)
      have e2 := span_eq (f := isSolid) n ((x :: sp ++ c2 :: fill) ++ c :: (s ++ (gap ++ (d1 ++ '.' :: (d2 ++ [' ', 's', 'e', 'c']))))) h5.2 (by
        intro c u h
        simp only [List.cons_append, List.cons.injEq] at h
        rw [← h.1]
        simp [isSolid, hx])
      simp only [e2.1, e2.2]
      rw [if_neg h5.1]
      have hc : isSpace c = true := (blank_iff _).mp h8 c (by simp)
      have hcw : isWord c = false := by
        cases hw : isWord c with
        | false => rfl
        | true => rw [word_not_space c hw] at hc; cases hc
      rw [timed_eq _ c s gap d1 d2 h9 (fun z hz => (word_iff z).mpr (h10 z hz)) hcw h11 h12 h13 h14]
      rw [if_pos ⟨hc, by simp; omega, by simp [hx]⟩]

theorem value_eq (t : Text) : number t = value t := rfl

/-- A status is read exactly from files of the two forms, with the number of the test that was asked for. -/
theorem status_iff (num : Nat) (file : List Text) (r : Status) :
    testStatus num file = some r ↔ ∃ project line d rest, file = project :: [] :: line :: rest ∧ ProjectForm project ∧ value d = num ∧
      ((CountForm line d ∧ ∃ last more, rest = last :: more ∧ OldForm last r.name r.status ∧ r.text = line ++ ['\n'] ++ last) ∨
       (StartForm line d ∧ ∃ count d' last more, rest = [] :: count :: last :: more ∧ CountForm count d' ∧ NewForm last r.name r.status ∧
          r.text = line ++ ['\n'] ++ last ++ ['\n'])) := by
  constructor
  · intro h
    unfold testStatus at h
    split at h
    · rename_i l1 l2 l3 rest
      split at h
      · rename_i hp
        obtain ⟨hp, rfl⟩ := hp
        rw [project_iff] at hp
        split at h
        · rename_i d hd
          rw [count_iff] at hd
          split at h
          · rename_i l4 more
            split at h
            · rename_i n s hs
              rw [old_iff] at hs
              split at h
              · rename_i hn
                simp only [Option.some.injEq] at h
                subst h
                exact ⟨l1, l3, d, _, rfl, hp, hn, Or.inl ⟨hd, l4, more, rfl, hs, by simp⟩⟩
              · cases h
            · cases h
          · cases h
        · split at h
          · rename_i d hd
            rw [start_iff] at hd
            split at h
            · rename_i l4 l5 l6 more
              split at h
              · rename_i hc
                obtain ⟨rfl, hc⟩ := hc
                obtain ⟨d', hd'⟩ := Option.isSome_iff_exists.mp hc
                rw [count_iff] at hd'
                split at h
                · rename_i n s hs
                  rw [new_iff] at hs
                  split at h
                  · rename_i hn
                    simp only [Option.some.injEq] at h
                    subst h
                    exact ⟨l1, l3, d, _, rfl, hp, hn, Or.inr ⟨hd, l5, d', l6, more, rfl, hd', hs, by simp⟩⟩
                  · cases h
                · cases h
              · cases h
            · cases h
          · cases h
      · cases h
    · cases h
  · rintro ⟨l1, l3, d, rest, rfl, hp, hn, h⟩
    rw [← project_iff] at hp
    rw [← value_eq] at hn
    obtain ⟨text, name, status⟩ := r
    rcases h with ⟨hc, l4, more, rfl, hs, ht⟩ | ⟨hst, l5, d', l6, more, rfl, hc, hs, ht⟩
    · rw [← count_iff] at hc
      rw [← old_iff] at hs
      simp only at hs ht
      simp [testStatus, hp, hc, hs, hn, ht]
    · have hno : countLine l3 = none := by
        cases hcl : countLine l3 with
        | none => rfl
        | some e =>
          rw [count_iff] at hcl
          obtain ⟨pad, e1, e2, e3⟩ := hcl
          obtain ⟨pad', rest, f1, f2, f3, f4⟩ := hst
          rw [blank_iff] at e2 f2
          have g1 := span_eq (f := isSpace) pad (e ++ ['/']) e2 (by
            intro c u h
            cases he : e with
            | nil => exact absurd he e3.1
            | cons x xs =>
              rw [he] at h
              simp only [List.cons_append, List.cons.injEq] at h
              rw [← h.1]
              exact digit_not_space x (e3.2 x (by rw [he]; simp)))
          have g2 := span_eq (f := isSpace) pad' (['S', 't', 'a', 'r', 't', ' '] ++ (d ++ ([':', ' '] ++ rest))) f2 (by
            intro c u h
            simp only [List.cons_append, List.cons.injEq] at h
            rw [← h.1]
            decide)
          rw [← e1] at g1
          rw [← f1] at g2
          have g3 := g1.2.symm.trans g2.2
          cases he : e with
          | nil => exact absurd he e3.1
          | cons x xs =>
            rw [he] at g3
            simp only [List.cons_append, List.cons.injEq] at g3
            have := e3.2 x (by rw [he]; simp)
            rw [g3.1] at this
            exact absurd this (by decide)
      rw [← start_iff] at hst
      rw [← count_iff] at hc
      rw [← new_iff] at hs
      simp only at hs ht
      simp [testStatus, hp, hno, hst, hc, hs, hn, ht]

/-- False: that a failing test is reported. ctest 2.8 prints the status of a failing test behind three stars without white space
between; such a line matches no pattern, and the program dies. -/
theorem failed_false (num : Nat) (pre : List Text) (project start count : Text) (pad ds ds2 name fill status gap d1 d2 : Text)
    (hd : Digits ds2) (hn : Solid name) (hs : status ≠ []) (hw : ∀ x ∈ status, x.isAlphanum = true ∨ x = '_')
    (hg : Blank gap) (hg0 : gap ≠ []) (h1 : Digits d1) (h2 : Digits d2) (hp : Blank pad) (hds : Digits ds) :
    testStatus num (project :: [] :: start :: [] :: count ::
      (pad ++ (ds ++ ([' ', 'T', 'e', 's', 't', ' ', '#'] ++ (ds2 ++ ([':', ' '] ++ (name ++ ((' ' :: fill) ++ ['*', '*', '*'] ++ (status ++ (gap ++ (d1 ++ '.' :: (d2 ++ [' ', 's', 'e', 'c']))))))))))) :: pre) = none := by
  cases hr : testStatus num _ with
  | none => rfl
  | some r =>
    obtain ⟨l1, l3, d, rest, e1, -, -, h⟩ := (status_iff _ _ _).mp hr
    simp only [List.cons.injEq, true_and] at e1
    obtain ⟨-, rfl, rfl⟩ := e1
    rcases h with ⟨hc, last, more, e2, ho, -⟩ | ⟨-, l5, d', last, more, e2, -, hnf, -⟩
    · simp only [List.cons.injEq] at e2
      obtain ⟨rfl, -⟩ := e2
      obtain ⟨pad, num, gap, tail, e3, -, hnum, -⟩ := ho
      have := congrArg List.length e3
      simp at this
    · simp only [List.cons.injEq, true_and] at e2
      obtain ⟨-, rfl, -⟩ := e2
      rw [← new_iff] at hnf
      unfold newStatus at hnf
      rw [(leading_iff _ _ _).mpr ⟨pad, rfl, hp, hds, by
        intro c u h
        simp only [List.cons_append, List.cons.injEq] at h
        rw [← h.1]
        decide⟩] at hnf
      simp only at hnf
      rw [(strip_iff _ _ _).mpr rfl] at hnf
      have e1 := span_eq (f := Char.isDigit) ds2 ([':', ' '] ++ (name ++ ((' ' :: fill) ++ ['*', '*', '*'] ++ (status ++ (gap ++ (d1 ++ '.' :: (d2 ++ [' ', 's', 'e', 'c']))))))) hd.2 (by
        intro c u h
        simp only [List.cons_append, List.cons.injEq] at h
        rw [← h.1]
        decide)
      simp only [e1.1, e1.2] at hnf
      rw [if_neg hd.1, (strip_iff _ _ _).mpr rfl] at hnf
      rw [solid_iff] at hn
      have e2 := span_eq (f := isSolid) name ((' ' :: fill) ++ ['*', '*', '*'] ++ (status ++ (gap ++ (d1 ++ '.' :: (d2 ++ [' ', 's', 'e', 'c']))))) hn.2 (by
        intro c u h
        simp only [List.cons_append, List.cons.injEq] at h
        rw [← h.1]
        decide)
      simp only [e2.1, e2.2] at hnf
      rw [if_neg hn.1] at hnf
      have e3 : (' ' :: fill) ++ ['*', '*', '*'] ++ (status ++ (gap ++ (d1 ++ '.' :: (d2 ++ [' ', 's', 'e', 'c'])))) =
          ((' ' :: fill) ++ ['*', '*']) ++ '*' :: (status ++ (gap ++ (d1 ++ '.' :: (d2 ++ [' ', 's', 'e', 'c'])))) := by simp
      rw [e3, timed_eq _ '*' status gap d1 d2 hs (fun z hz => (word_iff z).mpr (hw z hz)) (by decide) hg hg0 h1 h2] at hnf
      rw [if_neg (fun h => absurd h.1 (by decide))] at hnf
      cases hnf

/-- False: that name and status are those of the test. In the old format a long name touches the status; when something follows it,
the name that is reported contains the status and the status is the last word (the comment at the end of the function has such
a line). -/
theorem joined_false : testStatus 7 [['T', 'e', 's', 't', ' ', 'p', 'r', 'o', 'j', 'e', 'c', 't', ' ', '/'], [], ['7', '/'],
      ['7', ' ', 'T', 'e', 's', 't', 'i', 'n', 'g', ' ', 'a', 'b', '*', '*', '*', 'E', 'x', ':', ' ', 'S', 'e', 'g']] =
    some ⟨['7', '/', '\n', '7', ' ', 'T', 'e', 's', 't', 'i', 'n', 'g', ' ', 'a', 'b', '*', '*', '*', 'E', 'x', ':', ' ', 'S', 'e', 'g'],
      ['a', 'b', '*', '*', '*', 'E', 'x', ':'], ['S', 'e', 'g']⟩ := by
  decide +kernel

/-- And when nothing follows it the program dies: whatever the name, if there is no white space before the status. -/
theorem touching_false (num : Nat) (project d : Text) (pad ds w : Text) (more : List Text) (hw : Solid w)
    (hp : Blank pad) (hds : Digits ds) (hc : CountForm d ds) :
    testStatus num (project :: [] :: d :: (pad ++ (ds ++ ([' ', 'T', 'e', 's', 't', 'i', 'n', 'g', ' '] ++ w))) :: more) = none := by
  have hold : oldStatus (pad ++ (ds ++ ([' ', 'T', 'e', 's', 't', 'i', 'n', 'g', ' '] ++ w))) = none := by
    unfold oldStatus
    rw [(leading_iff _ _ _).mpr ⟨pad, rfl, hp, hds, by
      intro c u h
      simp only [List.cons_append, List.cons.injEq] at h
      rw [← h.1]
      decide⟩]
    simp only
    rw [(strip_iff _ _ _).mpr rfl]
    simp only
    cases hl : lastWord w with
    | none => rfl
    | some r =>
      obtain ⟨n, s⟩ := r
      obtain ⟨gap, tail, e, hg, hg0, -⟩ := (lastWord_iff _ _ _).mp hl
      cases gap with
      | nil => exact absurd rfl hg0
      | cons c gap =>
        exact absurd (hg c (by simp)) (hw.2 c (by rw [e]; simp))
  rw [← count_iff] at hc
  simp only [testStatus, hc, hold]
  split <;> rfl

/-- False: that the results can be printed one below the other. In the old format each text ends without a newline, so that the
next number follows on the same line. -/
theorem text_false (num : Nat) (file : List Text) (r : Status) (h : testStatus num file = some r)
    (ho : ∃ l d, file[2]? = some l ∧ CountForm l d) (hl : ∀ l, file[3]? = some l → '\n' ∉ l) : r.text.getLast? ≠ some '\n' := by
  obtain ⟨l1, l3, d, rest, rfl, -, -, h⟩ := (status_iff _ _ _).mp h
  obtain ⟨l, d0, hl2, hc0⟩ := ho
  simp only [List.getElem?_cons_succ, List.getElem?_cons_zero, Option.some.injEq] at hl2
  subst hl2
  rcases h with ⟨-, last, more, rfl, hform, ht⟩ | ⟨hst, count, d', last, more, rfl, hc, hform, ht⟩
  · have hn := hl last (by simp)
    rw [ht]
    obtain ⟨pad, num, gap, tail, e, -, hnum, -⟩ := hform
    have hne : last ≠ [] := by
      rw [e]
      intro h
      exact hnum.1 (List.append_eq_nil_iff.mp (List.append_eq_nil_iff.mp h).2).1
    intro hlast
    rw [List.getLast?_append] at hlast
    cases hh : last.getLast? with
    | none => exact hne (List.getLast?_eq_none_iff.mp hh)
    | some c =>
      rw [hh] at hlast
      simp only [Option.some_or, Option.some.injEq] at hlast
      subst hlast
      exact hn (List.mem_of_getLast? hh)
  · rw [← count_iff] at hc0
    exfalso
    obtain ⟨pad', rest, f1, f2, f3, f4⟩ := hst
    have g1 : l3.getLast? = some '/' := by
      obtain ⟨pad, e1, -, -⟩ := (count_iff _ _).mp hc0
      rw [e1]
      simp
    have hmem : ' ' ∈ l3.dropWhile isSpace := by
      have g2 := span_eq (f := isSpace) pad' (['S', 't', 'a', 'r', 't', ' '] ++ (d ++ ([':', ' '] ++ rest))) ((blank_iff _).mp f2) (by
        intro c u h
        simp only [List.cons_append, List.cons.injEq] at h
        rw [← h.1]
        decide)
      rw [← f1] at g2
      rw [g2.2]
      simp
    obtain ⟨pad, e1, e2, e3⟩ := (count_iff _ _).mp hc0
    have g3 := span_eq (f := isSpace) pad (d0 ++ ['/']) ((blank_iff _).mp e2) (by
      intro c u h
      cases he : d0 with
      | nil => exact absurd he e3.1
      | cons x xs =>
        rw [he] at h
        simp only [List.cons_append, List.cons.injEq] at h
        rw [← h.1]
        exact digit_not_space x (e3.2 x (by rw [he]; simp)))
    rw [← e1] at g3
    rw [g3.2] at hmem
    rcases List.mem_append.mp hmem with h | h
    · have := e3.2 _ h
      revert this
      decide
    · simp at h

/-! ### The hypotheses are met -/

example : testStatus 7 [['T', 'e', 's', 't', ' ', 'p', 'r', 'o', 'j', 'e', 'c', 't', ' ', '/'], [], ['7', '/'],
      [' ', '7', ' ', 'T', 'e', 's', 't', 'i', 'n', 'g', ' ', 'a', 'b', ' ', ' ', 'P', 'a', 's', 's', 'e', 'd']] =
    some ⟨['7', '/', '\n', ' ', '7', ' ', 'T', 'e', 's', 't', 'i', 'n', 'g', ' ', 'a', 'b', ' ', ' ', 'P', 'a', 's', 's', 'e', 'd'],
      ['a', 'b'], ['P', 'a', 's', 's', 'e', 'd']⟩ := by
  decide +kernel

example : testStatus 7 [['T', 'e', 's', 't', ' ', 'p', 'r', 'o', 'j', 'e', 'c', 't', ' ', '/'], [], [' ', 'S', 't', 'a', 'r', 't', ' ', '7', ':', ' ', 'a'], [], ['1', '/'],
      ['1', ' ', 'T', 'e', 's', 't', ' ', '#', '7', ':', ' ', 'a', ' ', '.', '.', ' ', 'P', 'a', 's', 's', 'e', 'd', ' ', '0', '.', '1', ' ', 's', 'e', 'c']] =
    some ⟨[' ', 'S', 't', 'a', 'r', 't', ' ', '7', ':', ' ', 'a', '\n', '1', ' ', 'T', 'e', 's', 't', ' ', '#', '7', ':', ' ', 'a', ' ', '.', '.', ' ', 'P', 'a', 's', 's', 'e', 'd', ' ', '0', '.', '1', ' ', 's', 'e', 'c', '\n'],
      ['a'], ['P', 'a', 's', 's', 'e', 'd']⟩ := by
  decide +kernel

example : CountForm ['7', '/'] ['7'] ∧ Solid ['a', '*', '*', '*', 'F'] ∧ Digits ['7'] :=
  ⟨⟨[], rfl, (by intro c h; cases h), by simp, by decide⟩, ⟨by simp, by decide⟩, by simp, by decide⟩

end Verif.DepVC.TestStatus
