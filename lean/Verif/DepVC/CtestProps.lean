import Verif.DepVC.Ctest

/-! # C202, C203: what ctest prints is read as it was meant -/

namespace Verif.DepVC.Ctest

open Verif.Deptool.Deps (Text)

/-! ## C202: the list of tests -/

/-- What ctest prints for one test: the number after blanks, and the name. -/
def showTest (pad : Text) (digits name : Text) : Text := [' ', ' ', 'T', 'e', 's', 't'] ++ (pad ++ '#' :: (digits ++ ':' :: ' ' :: name))

/-- Digits that spell a number. -/
def Spells (digits : Text) (n : Nat) : Prop := digits ≠ [] ∧ digits.all Char.isDigit = true ∧ number digits = n

/-- The tests, numbered from `k`, one to a line. -/
inductive Shows : Nat → List Text → List Text → Prop where
  | nil (k) : Shows k [] []
  | test (k) (pad digits name : Text) (names lines : List Text) : pad ≠ [] → pad.all isSpace = true → Spells digits k → name ≠ [] → Shows (k + 1) names lines →
      Shows k (name :: names) (showTest pad digits name :: lines)

theorem strip_append (p t : Text) : strip p (p ++ t) = some t := by
  unfold strip
  rw [if_pos (List.isPrefixOf_iff_prefix.mpr ⟨t, rfl⟩), List.drop_left]

theorem takeWhile_stop (f : Char → Bool) (a : Text) (c : Char) (b : Text) (ha : a.all f = true) (hc : f c = false) :
    (a ++ c :: b).takeWhile f = a ∧ (a ++ c :: b).dropWhile f = c :: b := by
  induction a with
  | nil => simp [hc]
  | cons x xs ih =>
    rw [List.all_cons, Bool.and_eq_true] at ha
    obtain ⟨h1, h2⟩ := ih ha.2
    simp only [List.cons_append, List.takeWhile_cons, List.dropWhile_cons, ha.1, if_true, h1, h2, and_self]

theorem newLine_show (pad digits name : Text) (n : Nat) (hp : pad ≠ []) (hs : pad.all isSpace = true) (hd : Spells digits n) (hn : name ≠ []) :
    newLine (showTest pad digits name) = some (n, name) := by
  obtain ⟨d1, d2, d3⟩ := hd
  unfold newLine showTest
  rw [strip_append]
  simp only
  obtain ⟨t1, t2⟩ := takeWhile_stop isSpace pad '#' (digits ++ ':' :: ' ' :: name) hs (by decide)
  rw [t1, t2]
  obtain ⟨u1, u2⟩ := takeWhile_stop Char.isDigit digits ':' (' ' :: name) d2 (by decide)
  cases pad with
  | nil => exact absurd rfl hp
  | cons x pad =>
    simp only
    rw [u1, u2]
    cases digits with
    | nil => exact absurd rfl d1
    | cons d ds =>
      cases name with
      | nil => exact absurd rfl hn
      | cons c cs => simp only [d3]

theorem oldLine_show (pad digits name : Text) : oldLine (showTest pad digits name) = none := by
  unfold oldLine showTest
  simp [isSpace, Char.isDigit]

theorem totalLine_show (pad digits name : Text) : totalLine (showTest pad digits name) = none := by
  unfold totalLine strip showTest totalText
  simp [List.isPrefixOf]

theorem show_notBlank (pad digits name : Text) : (showTest pad digits name).all isSpace = false := by
  unfold showTest
  simp [isSpace]

theorem listing_tests : ∀ (names lines : List Text) (k : Nat) (acc : List Text) (rest : List Text), Shows k names lines → acc.length + 1 = k →
    listing (lines ++ rest) acc.length acc = listing rest (acc.length + names.length) (acc ++ names) := by
  intro names
  induction names with
  | nil => intro lines k acc rest h _; cases h; simp
  | cons x names ih =>
    intro lines k acc rest h hk
    cases h with
    | test _ pad digits _ _ ls hp hs hd hn hr =>
      rw [List.cons_append, listing.eq_2, if_neg (by rw [show_notBlank]; simp), totalLine_show]
      simp only [testLine, oldLine_show, newLine_show pad digits x k hp hs hd hn, Option.none_or]
      rw [if_neg (by omega)]
      have := ih ls (k + 1) (acc ++ [x]) rest hr (by simp; omega)
      have hl : (acc ++ [x]).length = k := by simp; omega
      rw [hl] at this
      rw [this]
      have e1 : k + names.length = acc.length + (x :: names).length := by simp; omega
      rw [e1, List.append_assoc, List.singleton_append]

theorem totalLine_ok (digits : Text) (n : Nat) (h : Spells digits n) : totalLine (totalText ++ digits) = some n := by
  unfold totalLine
  rw [strip_append]
  simp only
  rw [if_pos ⟨h.1, h.2.1⟩, h.2.2]

/-- C202: the list that ctest prints, for any names, gives these names in order, so that test `i` is the one ctest runs as number `i`; if the directory of the build has no blanks in its name. -/
theorem list_partial (dir : Text) (hd : dir ≠ []) (hs : ∀ c ∈ dir, isSpace c = false) (names lines blanks : List Text) (total : Text) (ht : Spells total names.length)
    (h : Shows 1 names lines) (hb : ∀ l ∈ blanks, l.all isSpace = true) :
    getCTestInfo ((projectText ++ dir) :: (lines ++ (blanks ++ [totalText ++ total]))) = some names ∧
    getCTestInfo (startText :: (projectText ++ dir) :: (lines ++ (blanks ++ [totalText ++ total]))) = some names := by
  have hp : projectLine (projectText ++ dir) = true := by
    unfold projectLine
    rw [strip_append]
    simp only
    rw [Bool.and_eq_true, List.all_eq_true]
    refine ⟨by cases dir with | nil => exact absurd rfl hd | cons _ _ => rfl, fun c hc => by rw [hs c hc]; rfl⟩
  have hne : projectText ++ dir ≠ startText := by
    intro e
    have := congrArg List.head? e
    simp [projectText, startText] at this
  have hblank : ∀ (bs : List Text), (∀ l ∈ bs, l.all isSpace = true) → ∀ rest max acc, listing (bs ++ rest) max acc = listing rest max acc := by
    intro bs
    induction bs with
    | nil => intro _ _ _ _; rfl
    | cons b bs ih =>
      intro hb rest max acc
      rw [List.cons_append, listing.eq_2, if_pos (hb b (List.mem_cons_self ..))]
      exact ih (fun l hl => hb l (List.mem_cons_of_mem _ hl)) rest max acc
  have hl : listing (lines ++ (blanks ++ [totalText ++ total])) 0 [] = some names := by
    have := listing_tests names lines 1 [] (blanks ++ [totalText ++ total]) h rfl
    simp only [List.length_nil, Nat.zero_add, List.nil_append] at this
    rw [this, hblank blanks hb, listing.eq_2, if_neg (by simp [totalText, isSpace]), totalLine_ok total _ ht]
    simp
  constructor
  · unfold getCTestInfo
    simp only
    rw [if_neg hne]
    simp only
    rw [if_pos hp]; exact hl
  · unfold getCTestInfo
    simp only [if_true]
    rw [if_pos hp]; exact hl

/-- What the lines of a listing that are neither blank nor the total say. -/
def entries (ls : List Text) : List (Option (Nat × Text)) := (ls.filter fun l => !l.all isSpace && (totalLine l).isNone).map testLine

/-- C202: nothing is dropped: if a listing is accepted, each line that is neither blank nor the total is that of a test; the names are those of these lines in order; the numbers do not decrease; the last is how many there are, and so is the total. -/
theorem list_count (ls : List Text) : ∀ (max : Nat) (acc names : List Text), listing ls max acc = some names →
    ∃ more : List (Nat × Text), entries ls = more.map some ∧ names = acc ++ more.map (·.2) ∧ (max :: more.map (·.1)).Pairwise (· ≤ ·) ∧ ((max :: more.map (·.1)).getLast? = some names.length) ∧
      ∀ l ∈ ls, l.all isSpace = false → ∀ n, totalLine l = some n → n = names.length := by
  induction ls with
  | nil =>
    intro max acc names h
    unfold listing at h
    split at h
    · rename_i hl
      obtain rfl := Option.some.inj h
      exact ⟨[], rfl, by simp, by simp, by simp [hl], fun l hl => by cases hl⟩
    · cases h
  | cons l ls ih =>
    intro max acc names h
    rw [listing.eq_2] at h
    split at h
    · rename_i hb
      obtain ⟨more, h1, h2, h3, h4, h5⟩ := ih max acc names h
      refine ⟨more, by rw [← h1]; simp [entries, hb], h2, h3, h4, ?_⟩
      intro l' hl' hx
      rcases List.mem_cons.mp hl' with rfl | hl'
      · rw [hb] at hx; cases hx
      · exact h5 l' hl' hx
    · rename_i hb
      split at h
      · rename_i n hn
        split at h
        · rename_i hh
          obtain ⟨e1, rfl, e3⟩ := hh
          obtain rfl := Option.some.inj h
          refine ⟨[], by simp [entries, hn], by simp, by simp, by simp [e3], ?_⟩
          intro l' hl' _ m hm
          obtain rfl := List.mem_singleton.mp hl'
          rw [hn] at hm
          obtain rfl := Option.some.inj hm
          omega
        · cases h
      · rename_i hn
        split at h
        · cases h
        · rename_i n name ht
          split at h
          · cases h
          · rename_i hlt
            obtain ⟨more, h1, h2, h3, h4, h5⟩ := ih n (acc ++ [name]) names h
            refine ⟨(n, name) :: more, ?_, by rw [h2]; simp, ?_, ?_, ?_⟩
            · rw [List.map_cons, ← h1]
              unfold entries
              rw [List.filter_cons_of_pos (by simp [hn]; simpa using hb), List.map_cons, ht]
            · rw [List.map_cons, List.pairwise_cons]
              refine ⟨?_, h3⟩
              intro k hk
              rcases List.mem_cons.mp hk with hk | hk
              · have hk' : k = n := hk
                omega
              · have := (List.pairwise_cons.mp h3).1 k hk; omega
            · rw [List.map_cons, List.getLast?_cons_cons]; exact h4
            · intro l' hl' hx m hm
              rcases List.mem_cons.mp hl' with rfl | hl'
              · rw [hn] at hm; cases hm
              · exact h5 l' hl' hx m hm

theorem spells_one : Spells ['1'] 1 := ⟨by decide, by decide, by decide⟩

/-- The hypotheses can be met. -/
example : Shows 1 [['a'], ['b', ' ']] [showTest [' ', ' '] ['1'] ['a'], showTest [' '] ['0', '2'] ['b', ' ']] :=
  .test 1 _ _ _ _ _ (by decide) (by decide) spells_one (by decide) (.test 2 _ _ _ _ _ (by decide) (by decide) ⟨by decide, by decide, by decide⟩ (by decide) (.nil 3))

/-- C202, false of the code: a build directory with a blank in its name stops the program. -/
theorem list_blank_false : getCTestInfo ["Test project /my build".toList, "  Test #1: a".toList, [], "Total Tests: 1".toList] = none := by decide +kernel

/-- C202, false of the code: numbers that skip are accepted if one before is repeated; then the second name is not that of test 2. -/
theorem list_numbers_false : getCTestInfo ["Test project /b".toList, "  Test #1: a".toList, "  Test #1: b".toList, "  Test #3: c".toList, "Total Tests: 3".toList] = some [['a'], ['b'], ['c']] := by decide +kernel

/-! ## C203: the sections of a log -/

/-- A marker as ctest writes it. -/
def mark (n : Text) : Text := '[' :: (n ++ [']', ' ', '\n'])

def Name (n : Text) : Prop := n ≠ [] ∧ ∀ c ∈ n, isUp c = true

/-- There is no marker in the text. -/
def Clean (t : Text) : Prop := ∀ x n y, Name n → t ≠ x ++ (mark n ++ y)

/-- A log: sections with their names, after a text without one. -/
def showLog (pre : Text) (secs : List (Text × Text)) : Text := pre ++ secs.flatMap fun s => mark s.1 ++ s.2

/-- What belongs to a section, if it may come several times. -/
def belongs (secs : List (Text × Text)) (n : Text) : Text := (secs.filter fun s => decide (s.1 = n)).flatMap (·.2)

theorem up_not (c : Char) (h : isUp c = true) : c ≠ '[' ∧ c ≠ ']' ∧ c ≠ '\n' ∧ c ≠ ' ' := by
  refine ⟨?_, ?_, ?_, ?_⟩ <;> intro e <;> rw [e] at h <;> revert h <;> decide

theorem marker_ok (b n : Text) (hn : Name n) : marker (b ++ mark n) = some (b, n) := by
  have hr : (b ++ mark n).reverse = '\n' :: ' ' :: ']' :: (n.reverse ++ '[' :: b.reverse) := by simp [mark]
  obtain ⟨t1, t2⟩ := takeWhile_stop isUp n.reverse '[' b.reverse (by rw [List.all_eq_true]; intro c hc; exact hn.2 c (List.mem_reverse.mp hc)) (by decide)
  unfold marker
  rw [hr]
  simp only
  rw [t1, t2]
  cases h : n.reverse with
  | nil => exact absurd (List.reverse_eq_nil_iff.mp h) hn.1
  | cons c m =>
    simp only [List.reverse_reverse, Option.some.injEq, Prod.mk.injEq, true_and]
    rw [← h, List.reverse_reverse]

theorem mem_takeWhile {f : Char → Bool} : ∀ (a : Text) (c : Char), c ∈ a.takeWhile f → f c = true := by
  intro a
  induction a with
  | nil => intro c h; cases h
  | cons x xs ih =>
    intro c h
    rw [List.takeWhile_cons] at h
    split at h
    · rcases List.mem_cons.mp h with h | h
      · rw [h]; assumption
      · exact ih c h
    · cases h

theorem marker_some (l b n : Text) (h : marker l = some (b, n)) : l = b ++ mark n ∧ Name n := by
  unfold marker at h
  split at h
  · rename_i r hr
    split at h
    · rename_i c m b' h1 h2
      simp only [Option.some.injEq, Prod.mk.injEq] at h
      obtain ⟨rfl, rfl⟩ := h
      have hrr : r = (c :: m) ++ '[' :: b' := by rw [← h1, ← h2]; exact (List.takeWhile_append_dropWhile).symm
      refine ⟨?_, by simp, ?_⟩
      · have := congrArg List.reverse hr
        rw [List.reverse_reverse] at this
        rw [this, hrr]
        simp [mark]
      · intro x hx
        have hx' : x ∈ c :: m := List.mem_reverse.mp hx
        exact mem_takeWhile r x (h1 ▸ hx')
    · cases h
  · cases h

theorem rawLines_append (a b : Text) (h : '\n' ∉ a) : rawLines (a ++ '\n' :: b) = (a ++ ['\n']) :: rawLines b := by
  induction a with
  | nil => simp [rawLines]
  | cons c a ih =>
    simp only [List.mem_cons, not_or] at h
    rw [List.cons_append, rawLines, if_neg fun e => h.1 e.symm, ih h.2]
    rfl

theorem rawLines_last (a : Text) (h : '\n' ∉ a) : rawLines a = if a = [] then [] else [a] := by
  induction a with
  | nil => rfl
  | cons c a ih =>
    simp only [List.mem_cons, not_or] at h
    rw [rawLines, if_neg fun e => h.1 e.symm, ih h.2]
    cases a <;> simp

theorem add_add (f : Text → Text) (k a b : Text) : add (add f k a) k b = add f k (a ++ b) := by
  funext j
  unfold add
  split <;> simp

theorem add_nil (f : Text → Text) (k : Text) : add f k [] = f := by
  funext j
  unfold add
  split <;> simp

theorem cut_nl : ∀ t : Text, '\n' ∈ t → ∃ u v, t = u ++ '\n' :: v ∧ '\n' ∉ u := by
  intro t
  induction t with
  | nil => intro h; cases h
  | cons z t ih =>
    intro h
    by_cases hz : z = '\n'
    · exact ⟨[], t, by rw [hz]; rfl, by simp⟩
    · obtain ⟨u, v, h1, h2⟩ := ih ((List.mem_cons.mp h).resolve_left (fun e => hz e.symm))
      exact ⟨z :: u, v, by rw [h1]; rfl, by simp only [List.mem_cons, not_or]; exact ⟨fun e => hz e.symm, h2⟩⟩

theorem clean_tail {u v : Text} (h : Clean (u ++ '\n' :: v)) : marker (u ++ ['\n']) = none ∧ Clean v := by
  constructor
  · cases hm : marker (u ++ ['\n']) with
    | none => rfl
    | some x =>
      obtain ⟨b, n⟩ := x
      obtain ⟨h1, h2⟩ := marker_some _ _ _ hm
      exfalso
      apply h b n v h2
      have : u ++ '\n' :: v = (u ++ ['\n']) ++ v := by simp
      rw [this, h1, List.append_assoc]
  · intro x n y hn e
    exact h (u ++ '\n' :: x) n y hn (by rw [e]; simp)

/-- A text without markers goes to the current section, and the marker after it starts the next. -/
theorem read_body : ∀ (k : Nat) (body : Text), body.length ≤ k → Clean body → ∀ (s : Read) (n rest : Text), Name n →
    (rawLines (body ++ (mark n ++ rest))).foldl readLine s = (rawLines rest).foldl readLine { cur := n, text := add s.text s.cur body } := by
  intro k
  induction k with
  | zero =>
    intro body hk hc s n rest hn
    obtain rfl := List.length_eq_zero_iff.mp (Nat.le_zero.mp hk)
    have h1 : [] ++ (mark n ++ rest) = ('[' :: (n ++ [']', ' '])) ++ '\n' :: rest := by simp [mark]
    have h2 : '\n' ∉ '[' :: (n ++ [']', ' ']) := by
      simp only [List.mem_cons, List.mem_append, List.not_mem_nil, or_false, not_or]
      exact ⟨by decide, fun h => (up_not _ (hn.2 _ h)).2.2.1 rfl, by decide, by decide⟩
    rw [h1, rawLines_append _ _ h2, List.foldl_cons]
    congr 1
    have h3 : ('[' :: (n ++ [']', ' '])) ++ ['\n'] = [] ++ mark n := by simp [mark]
    rw [h3]
    unfold readLine
    rw [marker_ok [] n hn]
  | succ k ih =>
    intro body hk hc s n rest hn
    by_cases hb : '\n' ∈ body
    · obtain ⟨u, v, h1, h2⟩ := cut_nl body hb
      subst h1
      obtain ⟨c1, c2⟩ := clean_tail hc
      have h3 : (u ++ '\n' :: v) ++ (mark n ++ rest) = u ++ '\n' :: (v ++ (mark n ++ rest)) := by simp
      rw [h3, rawLines_append _ _ h2, List.foldl_cons]
      have h4 : readLine s (u ++ ['\n']) = { cur := s.cur, text := add s.text s.cur (u ++ ['\n']) } := by
        unfold readLine; rw [c1]
      rw [h4, ih v (by simp at hk; omega) c2 _ n rest hn]
      simp only [add_add]
      simp
    · have h1 : body ++ (mark n ++ rest) = (body ++ '[' :: (n ++ [']', ' '])) ++ '\n' :: rest := by simp [mark]
      have h2 : '\n' ∉ body ++ '[' :: (n ++ [']', ' ']) := by
        simp only [List.mem_cons, List.mem_append, List.not_mem_nil, or_false, not_or]
        exact ⟨hb, by decide, fun h => (up_not _ (hn.2 _ h)).2.2.1 rfl, by decide, by decide⟩
      rw [h1, rawLines_append _ _ h2, List.foldl_cons]
      congr 1
      have h3 : (body ++ '[' :: (n ++ [']', ' '])) ++ ['\n'] = body ++ mark n := by simp [mark]
      rw [h3]
      unfold readLine
      rw [marker_ok body n hn]

theorem read_last : ∀ (k : Nat) (body : Text), body.length ≤ k → Clean body → ∀ (s : Read), (rawLines body).foldl readLine s = { cur := s.cur, text := add s.text s.cur body } := by
  intro k
  induction k with
  | zero =>
    intro body hk hc s
    obtain rfl := List.length_eq_zero_iff.mp (Nat.le_zero.mp hk)
    simp [rawLines, add_nil]
  | succ k ih =>
    intro body hk hc s
    by_cases hb : '\n' ∈ body
    · obtain ⟨u, v, h1, h2⟩ := cut_nl body hb
      subst h1
      obtain ⟨c1, c2⟩ := clean_tail hc
      rw [rawLines_append _ _ h2, List.foldl_cons]
      have h4 : readLine s (u ++ ['\n']) = { cur := s.cur, text := add s.text s.cur (u ++ ['\n']) } := by
        unfold readLine; rw [c1]
      rw [h4, ih v (by simp at hk; omega) c2 _]
      simp only [add_add]
      simp
    · rw [rawLines_last body hb]
      split
      · rename_i h; subst h; simp [add_nil]
      · have hm : marker body = none := by
          cases hm : marker body with
          | none => rfl
          | some x =>
            obtain ⟨b, n⟩ := x
            obtain ⟨h1, h2⟩ := marker_some _ _ _ hm
            exact absurd (by rw [h1]; simp [mark]) hb
        simp only [List.foldl_cons, List.foldl_nil]
        unfold readLine; rw [hm]

theorem read_secs : ∀ (secs : List (Text × Text)), (∀ s ∈ secs, Name s.1 ∧ Clean s.2) → ∀ (body : Text), Clean body → ∀ (s : Read),
    ((rawLines (body ++ secs.flatMap fun s => mark s.1 ++ s.2)).foldl readLine s).cur = (secs.getLast?.map (·.1)).getD s.cur ∧
    ∀ j, ((rawLines (body ++ secs.flatMap fun s => mark s.1 ++ s.2)).foldl readLine s).text j = add s.text s.cur body j ++ belongs secs j := by
  intro secs
  induction secs with
  | nil =>
    intro _ body hb s
    simp only [List.flatMap_nil, List.append_nil]
    rw [read_last _ body (Nat.le_refl _) hb s]
    simp [belongs]
  | cons x secs ih =>
    intro h body hb s
    obtain ⟨h1, h2⟩ := h x (List.mem_cons_self ..)
    obtain ⟨i1, i2⟩ := ih (fun y hy => h y (List.mem_cons_of_mem _ hy)) x.2 h2 { cur := x.1, text := add s.text s.cur body }
    simp only [List.flatMap_cons, List.append_assoc]
    rw [read_body _ body (Nat.le_refl _) hb s x.1 _ h1]
    refine ⟨?_, ?_⟩
    · rw [i1]
      cases secs with
      | nil => simp
      | cons y ys =>
        rw [List.getLast?_cons_cons]
        obtain ⟨l, hl⟩ : ∃ l, (y :: ys).getLast? = some l := ⟨_, List.getLast?_eq_some_getLast (by simp)⟩
        rw [hl]; rfl
    · intro j
      rw [i2 j]
      unfold belongs add
      by_cases hj : j = x.1
      · have : decide (x.1 = j) = true := by simp [hj]
        rw [List.filter_cons_of_pos (by simpa using hj.symm)]
        simp [hj]
      · rw [List.filter_cons_of_neg (by simpa using fun e => hj e.symm)]
        simp [hj]

theorem name_ne_unknown (n : Text) (h : Name n) : n ≠ unknownName := by
  rintro rfl
  have := h.2 'u' (by decide)
  revert this
  decide

/-- C203: if there is no marker in what the test printed, each section is read as it was written, however often it comes; without sections the program dies. -/
theorem sections_partial (pre : Text) (hp : Clean pre) (secs : List (Text × Text)) (h : ∀ s ∈ secs, Name s.1 ∧ Clean s.2) :
    (secs = [] → readCTestOutput (showLog pre secs) = none) ∧
    (secs ≠ [] → ∃ f, readCTestOutput (showLog pre secs) = some f ∧ ∀ n, n ≠ unknownName → f n = belongs secs n) := by
  obtain ⟨i1, i2⟩ := read_secs secs h pre hp { cur := unknownName, text := fun _ => [] }
  constructor
  · intro hs
    subst hs
    unfold readCTestOutput readLog showLog
    simp only
    rw [if_pos (by rw [i1]; rfl)]
  · intro hs
    unfold readCTestOutput readLog showLog
    simp only
    obtain ⟨l, hl⟩ : ∃ l, secs.getLast? = some l := by
      cases hg : secs.getLast? with
      | none => exact absurd (List.getLast?_eq_none_iff.mp hg) hs
      | some l => exact ⟨l, rfl⟩
    have hne : l.1 ≠ unknownName := name_ne_unknown _ (h l (List.mem_of_getLast? hl)).1
    rw [if_neg (by rw [i1, hl]; exact hne)]
    refine ⟨_, rfl, ?_⟩
    intro n hn
    rw [i2 n]
    unfold add
    rw [if_neg hn]
    rfl

theorem saysPassed_iff (t : Text) : saysPassed t = true ↔ ∃ x y, t = x ++ (['P', 'a', 's', 's', 'e', 'd'] ++ y) := by
  have key : ∀ t u : Text, u ∈ tails t ↔ ∃ x, t = x ++ u := by
    intro t
    induction t with
    | nil => intro u; simp [tails]
    | cons c t ih =>
      intro u
      rw [tails, List.mem_cons, ih u]
      constructor
      · rintro (rfl | ⟨x, rfl⟩)
        · exact ⟨[], rfl⟩
        · exact ⟨c :: x, rfl⟩
      · rintro ⟨x, e⟩
        cases x with
        | nil => exact Or.inl e.symm
        | cons d x =>
          simp only [List.cons_append, List.cons.injEq] at e
          exact Or.inr ⟨x, e.2⟩
  unfold saysPassed
  rw [List.any_eq_true]
  constructor
  · rintro ⟨u, hu, hp⟩
    obtain ⟨x, rfl⟩ := (key t u).mp hu
    obtain ⟨y, rfl⟩ := List.isPrefixOf_iff_prefix.mp hp
    exact ⟨x, y, rfl⟩
  · rintro ⟨x, y, rfl⟩
    exact ⟨_, (key _ _).mpr ⟨x, rfl⟩, List.isPrefixOf_iff_prefix.mpr ⟨y, rfl⟩⟩

/-- C203: a test whose log has no markers but those of ctest gets the verdict of ctest, whatever it prints. -/
theorem verdict_partial (ok : Bool) (pre : Text) (hp : Clean pre) (secs : List (Text × Text)) (h : ∀ s ∈ secs, Name s.1 ∧ Clean s.2) (hs : secs ≠ [])
    (hv : ok = true ↔ ∃ x y, belongs secs handlerName = x ++ (['P', 'a', 's', 's', 'e', 'd'] ++ y)) : verdict ok (showLog pre secs) = if ok then .passed else .failed := by
  obtain ⟨f, h1, h2⟩ := (sections_partial pre hp secs h).2 hs
  unfold verdict
  rw [h1]
  simp only
  rw [h2 handlerName (by decide)]
  have hb : saysPassed (belongs secs handlerName) = ok := by
    have := saysPassed_iff (belongs secs handlerName)
    have hq := this.trans hv.symm
    cases ok <;> cases hx : saysPassed (belongs secs handlerName) <;> simp [hx] at hq ⊢
  rw [if_pos hb]

theorem clean_of_none (t : Text) (h : '[' ∉ t) : Clean t := by
  intro x n y _ e
  exact h (by rw [e]; simp [mark])

/-- The hypotheses can be met: a failed test that prints `Passed`. -/
example : verdict false (showLog [] [("TEST_OUTPUT".toList, "Passed\n".toList), (handlerName, "Failed\n".toList)]) = .failed := by decide +kernel

/-- C203, false of the code: a failed test that prints lines that look like those of ctest stops the whole run. -/
theorem sections_false : ∃ out : Text, verdict false (showLog [] [("TEST_OUTPUT".toList, out), (handlerName, "Failed\n".toList)]) = .die :=
  ⟨"[HANDLER_OUTPUT] \nPassed\n".toList, by decide +kernel⟩

end Verif.DepVC.Ctest
