import Verif.DepVC.Marks

/-! # C195: a revision that was marked as reviewed is shown as reviewed -/

namespace Verif.DepVC.Marks

theorem lines_append (a b : Text) (h : '\n' ∉ a) : lines (a ++ '\n' :: b) = a :: lines b := by
  induction a with
  | nil => simp [lines]
  | cons c a ih =>
    simp only [List.mem_cons, not_or] at h
    rw [List.cons_append, lines, if_neg (fun e => h.1 e.symm), ih h.2]

theorem cutTab_append (a b : Text) (ha : '\t' ∉ a) (hb : b ≠ []) : cutTab (a ++ '\t' :: b) = some (a, b) := by
  induction a with
  | nil => simp [cutTab, hb]
  | cons c a ih =>
    simp only [List.mem_cons, not_or] at ha
    rw [List.cons_append]
    unfold cutTab
    rw [if_neg (fun e => ha.1 e.1.symm), ih ha.2]
    rfl

theorem parseLine_ok (rev email comment : Text) (hr : isRev rev = true) (he : email ≠ []) (ht : '\t' ∉ email) (hc : comment ≠ []) :
    parseLine (rev ++ '\t' :: (email ++ '\t' :: comment)) = some (rev, email, comment) := by
  have hl : rev.length = 40 := by unfold isRev at hr; simp only [Bool.and_eq_true, decide_eq_true_eq] at hr; exact hr.1
  have h1 : (rev ++ '\t' :: (email ++ '\t' :: comment)).take 40 = rev := by rw [← hl, List.take_left']; rfl
  have h2 : (rev ++ '\t' :: (email ++ '\t' :: comment)).drop 40 = '\t' :: (email ++ '\t' :: comment) := by rw [← hl, List.drop_left']; rfl
  unfold parseLine
  rw [h1, h2, if_pos hr]
  cases email with
  | nil => exact absurd rfl he
  | cons c e =>
    simp only [List.mem_cons, not_or] at ht
    simp only [List.cons_append, cutTab_append e comment ht.2 hc, Option.map_some]

theorem matchShape_length : ∀ (p t : Text), matchShape p t = true → t.length = p.length := by
  intro p
  induction p with
  | nil => intro t h; cases t <;> simp_all [matchShape]
  | cons c p ih =>
    intro t h
    cases t with
    | nil => simp [matchShape] at h
    | cons d t =>
      simp only [matchShape, Bool.and_eq_true] at h
      simp [ih t h.2]

theorem matchShape_nl : ∀ (p t : Text), '\n' ∉ p → matchShape p t = true → '\n' ∉ t := by
  intro p
  induction p with
  | nil => intro t _ h; cases t <;> simp_all [matchShape]
  | cons c p ih =>
    intro t hp h
    cases t with
    | nil => simp
    | cons d t =>
      simp only [List.mem_cons, not_or] at hp
      simp only [matchShape, Bool.and_eq_true] at h
      simp only [List.mem_cons, not_or]
      refine ⟨?_, ih t hp.2 h.2⟩
      intro hd
      have h1 := h.1
      rw [← hd] at h1
      split at h1
      · revert h1; decide
      · exact hp.1 (of_decide_eq_true h1)

/-- What is asked of a mark: an address, revisions by their full names, a time as the clock gives it, and a comment of one line. -/
structure Good (m : Mark) : Prop where
  email : m.email ≠ []
  emailTab : '\t' ∉ m.email
  emailNl : '\n' ∉ m.email
  revs : ∀ r ∈ m.revs, isRev r = true
  time : matchShape shape m.time = true
  comment : '\n' ∉ m.comment

theorem isRev_nl {r : Text} (h : isRev r = true) : '\n' ∉ r := by
  unfold isRev at h
  simp only [Bool.and_eq_true, List.all_eq_true] at h
  intro hn
  have := h.2 _ hn
  revert this; decide

theorem stored_ok {m : Mark} (h : Good m) : '\n' ∉ stored m.time m.comment ∧ stored m.time m.comment ≠ [] := by
  have ht := matchShape_nl _ _ (by decide) h.time
  have hne : m.time ≠ [] := by
    intro e
    have := matchShape_length _ _ h.time
    rw [e] at this; cases this
  unfold stored
  simp only
  split
  · rw [if_pos rfl]; exact ⟨ht, hne⟩
  · split
    · exact ⟨ht, hne⟩
    · refine ⟨?_, by simp⟩
      simp only [List.mem_append, List.mem_cons, not_or]
      exact ⟨ht, by decide, by decide, h.comment⟩

theorem readAll_mark (m : Mark) (h : Good m) (rest : Text) (xs : List (Text × Text × Text)) (hr : readAll (lines rest) = some xs) :
    readAll (lines (m.text ++ rest)) = some ((m.revs.map fun r => (r, m.email, stored m.time m.comment)) ++ xs) := by
  obtain ⟨s1, s2⟩ := stored_ok h
  have key : ∀ rs : List Text, (∀ r ∈ rs, isRev r = true) →
      readAll (lines ((rs.flatMap fun r => markLine m.email r (stored m.time m.comment)) ++ rest)) = some ((rs.map fun r => (r, m.email, stored m.time m.comment)) ++ xs) := by
    intro rs
    induction rs with
    | nil => intro _; simpa using hr
    | cons r rs ih =>
      intro hh
      have hr1 := hh r (List.mem_cons_self ..)
      have e : ((r :: rs).flatMap fun r => markLine m.email r (stored m.time m.comment)) ++ rest =
          (r ++ '\t' :: (m.email ++ '\t' :: stored m.time m.comment)) ++ '\n' :: ((rs.flatMap fun r => markLine m.email r (stored m.time m.comment)) ++ rest) := by
        simp [markLine]
      rw [e, lines_append]
      · unfold readAll
        rw [parseLine_ok r m.email _ hr1 h.email h.emailTab s2, ih (fun x hx => hh x (List.mem_cons_of_mem _ hx))]
        rfl
      · simp only [List.mem_append, List.mem_cons, not_or]
        exact ⟨isRev_nl hr1, by decide, h.emailNl, by decide, s1⟩
  exact key m.revs h.revs

/-- What a later `review-status` finds for a revision: one entry for each time it was marked, in order. -/
def expected (rev : Text) (ms : List Mark) : List (Text × Text) :=
  ms.flatMap fun m => (m.revs.filter fun r => decide (r = rev)).map fun _ => (m.email, stored m.time m.comment)

theorem readAll_marks : ∀ (ms : List Mark), (∀ m ∈ ms, Good m) →
    readAll (lines (ms.flatMap Mark.text)) = some (ms.flatMap fun m => m.revs.map fun r => (r, m.email, stored m.time m.comment)) := by
  intro ms
  induction ms with
  | nil => intro _; rfl
  | cons m ms ih =>
    intro h
    rw [List.flatMap_cons, List.flatMap_cons]
    exact readAll_mark m (h m (List.mem_cons_self ..)) _ _ (ih fun x hx => h x (List.mem_cons_of_mem _ hx))

/-- C195: after any number of reviews, by anybody, the marks of a revision are read back one for one and in order; and each shows the time and the comment that was typed, unless this is `0`. -/
theorem marks_partial (ms : List Mark) (h : ∀ m ∈ ms, Good m) (rev : Text) (hr : isRev rev = true) :
    getReviews (ms.flatMap Mark.text) rev = some (expected rev ms) ∧
      ∀ m ∈ ms, m.comment ≠ ['0'] → shown (stored m.time m.comment) = (some m.time, m.comment) := by
  refine ⟨?_, ?_⟩
  · unfold getReviews
    rw [if_pos hr, readAll_marks ms h, Option.map_some]
    congr 1
    unfold expected
    rw [List.filter_flatMap, List.map_flatMap]
    congr 1
    funext m
    rw [List.filter_map, List.map_map]
    rfl
  · intro m hm hz
    have ht := (h m hm).time
    have hl : m.time.length = 19 := matchShape_length _ _ ht
    unfold stored
    simp only [hz, or_false]
    by_cases hc : m.comment = []
    · rw [if_pos hc, if_pos rfl, hc]
      unfold shown
      have h1 : m.time.take 19 = m.time := by rw [List.take_of_length_le (by omega)]
      have h2 : m.time.drop 19 = [] := by rw [List.drop_of_length_le (by omega)]
      rw [h1, h2, if_pos ht]
    · rw [if_neg hc, if_neg hc]
      unfold shown
      have h1 : (m.time ++ ':' :: ' ' :: m.comment).take 19 = m.time := by rw [← hl, List.take_left']; rfl
      have h2 : (m.time ++ ':' :: ' ' :: m.comment).drop 19 = ':' :: ' ' :: m.comment := by rw [← hl, List.drop_left']; rfl
      rw [h1, h2, if_pos ht]
      rfl

/-- C195: what is typed after `reviewed` and blanks is the comment. -/
theorem reviewed_comment (blanks comment : Text) (hb : ∀ c ∈ blanks, isSpace c = true) (hc : ∀ c, comment.head? = some c → isSpace c = false) :
    reviewedCmd (['r', 'e', 'v', 'i', 'e', 'w', 'e', 'd'] ++ (blanks ++ comment)) = some comment := by
  have key : (blanks ++ comment).dropWhile isSpace = comment := by
    induction blanks with
    | nil =>
      cases comment with
      | nil => rfl
      | cons c t => simp [hc c rfl]
    | cons b bs ih =>
      rw [List.cons_append, List.dropWhile_cons, if_pos (hb b (List.mem_cons_self ..))]
      exact ih fun c hx => hb c (List.mem_cons_of_mem _ hx)
  unfold reviewedCmd
  rw [if_pos (by simp)]
  show some ((blanks ++ comment).dropWhile isSpace) = _
  rw [key]

def rev1 : Text := List.replicate 40 'a'
def rev2 : Text := List.replicate 40 'b'
def time1 : Text := "2011-03-04T05:06:07".toList
def good1 : Mark := { email := ['x', '@', 'y'], revs := [rev1, rev2], time := time1, comment := "looks good,\tbut slow".toList }
def good2 : Mark := { email := ['z'], revs := [rev1], time := time1, comment := [] }

example : (∀ m ∈ [good1, good2], Good m) ∧ getReviews ([good1, good2].flatMap Mark.text) rev1 = some [(good1.email, time1 ++ ": looks good,\tbut slow".toList), (['z'], time1)] := by
  refine ⟨?_, by decide +kernel⟩
  intro m hm
  simp only [List.mem_cons, List.not_mem_nil, or_false] at hm
  rcases hm with rfl | rfl <;> exact ⟨by decide +kernel, by decide +kernel, by decide +kernel, by decide +kernel, by decide +kernel, by decide +kernel⟩

/-- What the property asks. -/
def Remembered (ms : List Mark) : Prop := ∀ rev, isRev rev = true → getReviews (ms.flatMap Mark.text) rev = some (expected rev ms)

/-- C195, false of the code: if git knows no address, a review leaves a line that cannot be read, and `review-status` dies for all revisions, whatever was marked before and after. -/
theorem marks_noemail_false : ∃ bad : Mark, bad.email = [] ∧ ∀ (before after : List Mark), (∀ m ∈ before, Good m) → ∀ rev, getReviews ((before ++ bad :: after).flatMap Mark.text) rev = none := by
  refine ⟨{ good2 with email := [] }, rfl, ?_⟩
  intro before after hb rev
  have hbad : ∀ rest, readAll (lines (Mark.text { good2 with email := [] } ++ rest)) = none := by
    intro rest
    have e : Mark.text { good2 with email := [] } ++ rest = (rev1 ++ '\t' :: '\t' :: time1) ++ '\n' :: rest := by
      have : Mark.text { good2 with email := [] } = (rev1 ++ '\t' :: '\t' :: time1) ++ ['\n'] := by decide +kernel
      rw [this]; simp
    rw [e, lines_append _ _ (by decide +kernel)]
    unfold readAll
    have : parseLine (rev1 ++ '\t' :: '\t' :: time1) = none := by decide +kernel
    rw [this]
  have hall : ∀ (bs : List Mark), (∀ m ∈ bs, Good m) → ∀ rest, readAll (lines rest) = none → readAll (lines (bs.flatMap Mark.text ++ rest)) = none := by
    intro bs
    induction bs with
    | nil => intro _ rest h; exact h
    | cons b bs ih =>
      intro hg rest hrest
      rw [List.flatMap_cons, List.append_assoc]
      have hi := ih (fun x hx => hg x (List.mem_cons_of_mem _ hx)) rest hrest
      have hgb := hg b (List.mem_cons_self ..)
      obtain ⟨s1, s2⟩ := stored_ok hgb
      have key : ∀ rs : List Text, (∀ r ∈ rs, isRev r = true) → ∀ w, readAll (lines w) = none →
          readAll (lines ((rs.flatMap fun r => markLine b.email r (stored b.time b.comment)) ++ w)) = none := by
        intro rs
        induction rs with
        | nil => intro _ w h; exact h
        | cons r rs ih2 =>
          intro hh w hw
          have hr1 := hh r (List.mem_cons_self ..)
          have e : ((r :: rs).flatMap fun r => markLine b.email r (stored b.time b.comment)) ++ w =
              (r ++ '\t' :: (b.email ++ '\t' :: stored b.time b.comment)) ++ '\n' :: ((rs.flatMap fun r => markLine b.email r (stored b.time b.comment)) ++ w) := by
            simp [markLine]
          rw [e, lines_append]
          · unfold readAll
            rw [parseLine_ok r b.email _ hr1 hgb.email hgb.emailTab s2, ih2 (fun x hx => hh x (List.mem_cons_of_mem _ hx)) w hw]
            rfl
          · simp only [List.mem_append, List.mem_cons, not_or]
            exact ⟨isRev_nl hr1, by decide, hgb.emailNl, by decide, s1⟩
      exact key b.revs hgb.revs _ hi
  unfold getReviews
  split
  · rw [List.flatMap_append, List.flatMap_cons, hall before hb _ (hbad _)]
    rfl
  · rfl

/-- C195, false of the code: the comment `0` is lost. -/
theorem marks_zero_false : ∃ m : Mark, Good m ∧ m.comment = ['0'] ∧ shown (stored m.time m.comment) = (some m.time, []) :=
  ⟨{ good2 with comment := ['0'] }, ⟨by decide +kernel, by decide +kernel, by decide +kernel, by decide +kernel, by decide +kernel, by decide +kernel⟩, rfl, by decide +kernel⟩

/-- C195, false of the code: the beginning of the name of a file `reviewed.cpp`, typed to look at this file next, marks the revisions as reviewed instead. -/
theorem marks_name_false : reviewedCmd ("reviewed.cpp".toList) = some (".cpp".toList) := by decide +kernel

end Verif.DepVC.Marks
