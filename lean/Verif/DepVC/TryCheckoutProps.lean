import Verif.DepVC.TryCheckout

/-! # deptool: checking out a missing dependency (C259) -/

namespace Verif.DepVC.TryCheckout

open Verif.Deptool.Deps (Text isWord)
open Verif.DepVC.Ctest (isSpace)

/-! ## Specification -/

/-- A branch `h/…` where `h` is a name with a dot. -/
def Hosted (line h : Text) : Prop := ∃ w x r : Text, w ≠ [] ∧ (∀ c ∈ w, isWord c = true) ∧ x ≠ [] ∧ '/' ∉ x ∧ h = w ++ '.' :: x ∧ line = h ++ '/' :: r

/-- What is proposed: the host of the first branch that has one. -/
inductive Proposed : List Text → Text → Prop
  | none {ls} (h : ∀ l ∈ ls, ∀ x, ¬ Hosted l x) : Proposed ls "unknown.example.com".toList
  | first {a l b h} (ha : ∀ l ∈ a, ∀ x, ¬ Hosted l x) (hl : Hosted l h) : Proposed (a ++ l :: b) h

/-- What is made: what the user says, or what is proposed if they say nothing. -/
inductive Wanted (dep : Text) (lines : List Text) : Option Text → Text → Prop
  | eof {h} (hp : Proposed lines h) : Wanted dep lines none (h ++ "/".toList ++ dep)
  | blank {a h} (hb : ∀ c ∈ a, isSpace c = true) (hp : Proposed lines h) : Wanted dep lines (some a) (h ++ "/".toList ++ dep)
  | line {b} (c : Char) (hc : c ∈ b) (hs : isSpace c = false) (hn : '\n' ∉ b) : Wanted dep lines (some (b ++ ['\n'])) b
  | last {b} (c : Char) (hc : c ∈ b) (hs : isSpace c = false) (hn : '\n' ∉ b) : Wanted dep lines (some b) b

/-- Got: the checkout worked and the directory is there. -/
def Got {σ : Type} (E : Env σ) (s s' : σ) : Prop := E.checkout s = (.ok, s') ∧ E.here s' = true

/-! ## Lemmas -/

theorem span_word (a b : Text) (ha : ∀ c ∈ a, isWord c = true) :
    (a ++ '.' :: b).takeWhile isWord = a ∧ (a ++ '.' :: b).dropWhile isWord = '.' :: b := by
  have hd : isWord '.' = false := by decide
  induction a with
  | nil => simp [hd]
  | cons c a ih =>
    obtain ⟨h1, h2⟩ := ih fun y hy => ha y (by simp [hy])
    have hc := ha c (by simp)
    rw [List.cons_append, List.takeWhile_cons, List.dropWhile_cons, if_pos hc, if_pos hc]
    exact ⟨congrArg (c :: ·) h1, h2⟩

theorem span_slash (a b : Text) (ha : '/' ∉ a) :
    (a ++ '/' :: b).takeWhile (· != '/') = a ∧ (a ++ '/' :: b).dropWhile (· != '/') = '/' :: b := by
  induction a with
  | nil => simp
  | cons c a ih =>
    obtain ⟨h1, h2⟩ := ih fun h => ha (by simp [h])
    have hc : (c != '/') = true := by
      rw [bne_iff_ne]
      rintro rfl
      exact ha (by simp)
    rw [List.cons_append, List.takeWhile_cons, List.dropWhile_cons, if_pos hc, if_pos hc]
    exact ⟨congrArg (c :: ·) h1, h2⟩

theorem take_all (p : Char → Bool) (t : Text) : ∀ c ∈ t.takeWhile p, p c = true := by
  have := List.all_takeWhile (p := p) (l := t)
  rw [List.all_eq_true] at this
  exact this

theorem drop_slash (t : Text) (h : t.dropWhile (· != '/') ≠ []) : ∃ r, t.dropWhile (· != '/') = '/' :: r := by
  induction t with
  | nil => exact absurd rfl h
  | cons c t ih =>
    rw [List.dropWhile_cons] at h ⊢
    split
    · rename_i hc
      rw [if_pos hc] at h
      exact ih h
    · rename_i hc
      have : c = '/' := by simpa using hc
      exact ⟨t, by rw [this]⟩

theorem host_iff (l h : Text) : host l = some h ↔ Hosted l h := by
  constructor
  · intro e
    unfold host at e
    split at e
    · rename_i r hr
      split at e
      · cases e
      · rename_i hn
        simp only [Bool.or_eq_true, List.isEmpty_iff, not_or] at hn
        obtain ⟨⟨h1, h2⟩, h3⟩ := hn
        obtain ⟨q, hq⟩ := drop_slash r h3
        cases e
        refine ⟨_, _, q, h1, take_all isWord l, h2, fun hm => ?_, rfl, ?_⟩
        · have := take_all (· != '/') r _ hm
          simp at this
        · have e1 := List.takeWhile_append_dropWhile (p := isWord) (l := l)
          have e2 := List.takeWhile_append_dropWhile (p := (· != '/')) (l := r)
          rw [hr] at e1
          rw [hq] at e2
          rw [List.append_assoc, List.cons_append, e2, e1]
    · cases e
  · rintro ⟨w, x, r, h1, h2, h3, h4, rfl, rfl⟩
    obtain ⟨a1, a2⟩ := span_word w (x ++ '/' :: r) h2
    obtain ⟨b1, b2⟩ := span_slash x r h4
    have e : (w ++ '.' :: x) ++ '/' :: r = w ++ '.' :: (x ++ '/' :: r) := by simp
    unfold host
    rw [e, a2, a1]
    simp only [b1, b2]
    rw [if_neg (by simp [h1, h3])]

theorem uniq_proposed (ls : List Text) : Proposed ls (uniq ls) := by
  induction ls with
  | nil =>
    rw [uniq]
    exact .none (by simp)
  | cons l ls ih =>
    rw [uniq]
    cases e : host l with
    | some h => exact Proposed.first (a := []) (by simp) ((host_iff l h).mp e)
    | none =>
      have hl : ∀ x, ¬ Hosted l x := fun x hx => by
        rw [(host_iff l x).mpr hx] at e
        cases e
      show Proposed (l :: ls) (uniq ls)
      generalize uniq ls = u at ih
      cases ih with
      | none h =>
        refine .none ?_
        intro y hy
        rcases List.mem_cons.mp hy with rfl | hy
        · exact hl
        · exact h y hy
      | first ha hh =>
        rw [← List.cons_append]
        refine .first ?_ hh
        intro y hy
        rcases List.mem_cons.mp hy with rfl | hy
        · exact hl
        · exact ha y hy

theorem uniq_none (a b : List Text) (h : ∀ l ∈ a, ∀ x, ¬ Hosted l x) : uniq (a ++ b) = uniq b := by
  induction a with
  | nil => rfl
  | cons l a ih =>
    rw [List.cons_append, uniq]
    cases e : host l with
    | some x => exact absurd ((host_iff l x).mp e) (h l (by simp) x)
    | none => exact ih fun y hy => h y (by simp [hy])

theorem proposed_unique (ls : List Text) (h : Text) (hp : Proposed ls h) : h = uniq ls := by
  cases hp with
  | none hn =>
    have := uniq_none ls [] hn
    rw [List.append_nil, uniq] at this
    exact this.symm
  | first ha hl =>
    rw [uniq_none _ _ ha, uniq, (host_iff _ _).mpr hl]

theorem not_all (b : Text) (c : Char) (hc : c ∈ b) (hs : isSpace c = false) : ¬ b.all isSpace = true := fun h => by
  rw [List.all_eq_true] at h
  rw [h c hc] at hs
  cases hs

/-- There is only one branch wanted. -/
theorem wanted_unique (dep : Text) (lines : List Text) (ans : Option Text) (b : Text) (h : Wanted dep lines ans b) : b = branch dep lines ans := by
  cases h with
  | eof hp =>
    rw [branch, proposed_unique lines _ hp, List.append_assoc]
    rfl
  | blank hb hp =>
    rw [branch, if_pos (List.all_eq_true.mpr hb), proposed_unique lines _ hp, List.append_assoc]
    rfl
  | line c hc hs hn =>
    rw [branch, if_neg (not_all _ c (by simp [hc]) hs), chomp, List.getLast?_concat, if_pos rfl, List.dropLast_concat]
  | last c hc hs hn =>
    rw [branch, if_neg (not_all _ c hc hs), chomp, if_neg]
    exact fun h => hn (List.mem_of_getLast? h)

/-- A line of input: at most one newline, at its end. -/
def Line (a : Text) : Prop := '\n' ∉ a.dropLast

/-! ## C259 -/

/-- The branch that is made is the one wanted. -/
theorem branch_wanted (dep : Text) (lines : List Text) (ans : Option Text) (hl : ∀ a, ans = some a → Line a) : Wanted dep lines ans (branch dep lines ans) := by
  have e : ∀ u : Text, u ++ '/' :: dep = u ++ "/".toList ++ dep := fun u => by
    rw [List.append_assoc]
    rfl
  cases ans with
  | none =>
    rw [branch, e]
    exact Wanted.eof (uniq_proposed lines)
  | some a =>
    rw [branch]
    split
    · rename_i h
      rw [List.all_eq_true] at h
      rw [e]
      exact Wanted.blank h (uniq_proposed lines)
    · rename_i h
      replace hl := hl a rfl
      have : ∃ c ∈ a, isSpace c = false := by
        rw [Bool.not_eq_true, List.all_eq_false] at h
        obtain ⟨c, hc, hx⟩ := h
        exact ⟨c, hc, by simpa using hx⟩
      obtain ⟨c, hc, hs⟩ := this
      unfold chomp
      unfold Line at hl
      rcases List.eq_nil_or_concat a with rfl | ⟨b, x, rfl⟩
      · cases hc
      · rw [List.concat_eq_append] at *
        rw [List.dropLast_concat] at hl
        rw [List.getLast?_concat, List.dropLast_concat]
        split
        · rename_i hx
          cases hx
          refine .line c ?_ hs hl
          rcases List.mem_append.mp hc with h | h
          · exact h
          · rw [List.mem_singleton] at h
            subst h
            exact absurd hs (by decide)
        · rename_i hx
          refine .last c hc hs ?_
          intro hm
          rcases List.mem_append.mp hm with h | h
          · exact hl h
          · rw [List.mem_singleton] at h
            exact hx (by rw [h])

/-- It returns exactly if the first checkout got the dependency, or there was no branch for it, the wanted one could be made and the second checkout got it. -/
theorem returns_iff {σ : Type} (E : Env σ) (dep : Text) (lines : List Text) (ans : Option Text) (s s' : σ) (hl : ∀ a, ans = some a → Line a) :
    tryCheckout E dep lines ans s = (true, s') ↔
      Got E s s' ∨ ∃ s1 s2 b, E.checkout s = (.noBranch, s1) ∧ Wanted dep lines ans b ∧ E.init b s1 = (true, s2) ∧ Got E s2 s' := by
  have hw := branch_wanted dep lines ans hl
  have hf : ∀ r : Out × σ, finish E r = (true, s') ↔ r = (.ok, s') ∧ E.here s' = true := by
    rintro ⟨o, t⟩
    unfold finish
    simp only [Prod.mk.injEq, Bool.and_eq_true, decide_eq_true_eq]
    constructor
    · rintro ⟨⟨rfl, h⟩, rfl⟩; exact ⟨⟨rfl, rfl⟩, h⟩
    · rintro ⟨⟨rfl, rfl⟩, h⟩; exact ⟨⟨rfl, h⟩, rfl⟩
  unfold tryCheckout Got
  cases e : E.checkout s with
  | mk o s1 =>
    cases o with
    | ok =>
      simp only [hf]
      constructor
      · exact fun h => .inl h
      · rintro (h | ⟨_, _, _, h, _⟩)
        · exact h
        · cases h
    | failed =>
      simp only [hf]
      constructor
      · exact fun h => .inl h
      · rintro (h | ⟨_, _, _, h, _⟩)
        · exact h
        · cases h
    | noBranch =>
      simp only []
      cases ei : E.init (branch dep lines ans) s1 with
      | mk ok s2 =>
        cases ok with
        | true =>
          simp only [hf]
          constructor
          · exact fun h => .inr ⟨s1, s2, _, rfl, hw, ei, h⟩
          · rintro (⟨h, -⟩ | ⟨t1, t2, b, h1, hb, h2, h3⟩)
            · cases h
            · cases h1
              obtain rfl := wanted_unique _ _ _ _ hb
              rw [ei] at h2
              cases h2
              exact h3
        | false =>
          simp only []
          constructor
          · intro h; cases h
          · rintro (⟨h, -⟩ | ⟨t1, t2, b, h1, hb, h2, h3⟩)
            · cases h
            · cases h1
              obtain rfl := wanted_unique _ _ _ _ hb
              rw [ei] at h2
              cases h2

/-- If the checkout fails for another reason, no branch is made: the state is that after the one checkout. -/
theorem other_failure {σ : Type} (E : Env σ) (dep : Text) (lines : List Text) (ans : Option Text) (s s1 : σ) (h : E.checkout s = (.failed, s1)) :
    tryCheckout E dep lines ans s = (false, s1) := by
  unfold tryCheckout
  rw [h]
  rfl

/-- If the branch cannot be made, there is no second checkout. -/
theorem init_failure {σ : Type} (E : Env σ) (dep : Text) (lines : List Text) (ans : Option Text) (s s1 s2 : σ) (b : Text) (h : E.checkout s = (.noBranch, s1))
    (hb : Wanted dep lines ans b) (hi : E.init b s1 = (false, s2)) : tryCheckout E dep lines ans s = (false, s2) := by
  obtain rfl := wanted_unique _ _ _ _ hb
  unfold tryCheckout
  rw [h]
  simp only [hi]

/-- False: that the branches there are say what to propose: names without a slash, as monotone's own, do not count. -/
theorem slashless_false (dep : Text) (lines : List Text) (h : ∀ l ∈ lines, '/' ∉ l) : branch dep lines none = "unknown.example.com/".toList ++ dep := by
  have hu : uniq lines = unknown := by
    induction lines with
    | nil => rw [uniq]
    | cons l ls ih =>
      rw [uniq]
      cases e : host l with
      | none => exact ih fun x hx => h x (by simp [hx])
      | some x =>
        obtain ⟨w, x', r, -, -, -, -, -, hl⟩ := (host_iff l x).mp e
        exact absurd (show '/' ∈ l by rw [hl]; simp) (h l (by simp))
  have hs : "unknown.example.com/".toList = unknown ++ ['/'] := by decide
  rw [branch, hu, hs, List.append_assoc, List.singleton_append]

/-- False: that blanks around an answer are dropped. -/
theorem blanks_false : branch ['L'] [] (some " a.b/L \n".toList) = " a.b/L ".toList := by decide

/-! ### The hypotheses are met -/

example : Line "a.b/L\n".toList := by unfold Line; decide

/-- A state that counts the branches made: the first checkout finds none, the second works. -/
def demo : Env (List Text) := ⟨fun s => if s.isEmpty then (.noBranch, s) else (.ok, s), fun b s => (true, b :: s), fun _ => true⟩

example : tryCheckout demo ['L'] ["x\n".toList, "a.b/M\n".toList] (some ['\n']) [] = (true, ["a.b/L".toList]) := by decide

end Verif.DepVC.TryCheckout
