import Verif.Mercury.Split

/-! # C243: two lines through the data -/

namespace Verif.Mercury.Split

variable {P : Type}

/-! ## Specification -/

/-- The line of a part, if it has one. -/
def LineOf (fit : List P → Option Line) (ps : List P) : Option Line → Prop
  | none => ps.length < 3
  | some l => 3 ≤ ps.length ∧ fit ps = some l

/-- How good a cut behind the point `i` is: the sum of the two deviations, or twice the one there is. -/
inductive Cost (fit : List P → Option Line) (ps : List P) (i : Nat) : Rat → Prop where
  | both (l r) : LineOf fit (ps.take (i + 1)) (some l) → LineOf fit (ps.drop (i + 1)) (some r) → Cost fit ps i (l.sigma + r.sigma)
  | left (l) : LineOf fit (ps.take (i + 1)) (some l) → LineOf fit (ps.drop (i + 1)) none → Cost fit ps i (l.sigma + l.sigma)
  | right (r) : LineOf fit (ps.take (i + 1)) none → LineOf fit (ps.drop (i + 1)) (some r) → Cost fit ps i (r.sigma + r.sigma)

/-- Every fit that is tried works. -/
def Fits (fit : List P → Option Line) (ps : List P) : Prop := ∀ i < ps.length, (3 ≤ (ps.take (i + 1)).length → (fit (ps.take (i + 1))).isSome) ∧ (3 ≤ (ps.drop (i + 1)).length → (fit (ps.drop (i + 1))).isSome)

/-! ## Lemmas -/

theorem part_line (fit : List P → Option Line) (ps : List P) (l : Option Line) (h : part fit ps = some l) : LineOf fit ps l := by
  simp only [part] at h
  split at h
  · rename_i h3
    cases hf : fit ps with
    | none => rw [hf] at h; cases h
    | some x => rw [hf] at h; cases h; exact ⟨h3, hf⟩
  · rename_i h3
    cases h
    exact Nat.lt_of_not_le h3

theorem lineOf_unique (fit : List P → Option Line) (ps : List P) (l l' : Option Line) (h : LineOf fit ps l) (h' : LineOf fit ps l') : l = l' := by
  cases l with
  | none =>
    cases l' with
    | none => rfl
    | some y => exact absurd h (Nat.not_lt.2 h'.1)
  | some x =>
    cases l' with
    | none => exact absurd h' (Nat.not_lt.2 h.1)
    | some y =>
      have h1 := h.2
      rw [h'.2] at h1
      exact h1.symm

theorem part_some (fit : List P → Option Line) (ps : List P) (h : 3 ≤ ps.length → (fit ps).isSome) : ∃ l, part fit ps = some l := by
  simp only [part]
  split
  · rename_i h3
    cases hf : fit ps with
    | none => have := h h3; rw [hf] at this; cases this
    | some x => exact ⟨some x, rfl⟩
  · exact ⟨none, rfl⟩

/-- With five points at least one of the parts has a line. -/
theorem one_line (ps : List P) (h : 5 ≤ ps.length) (i : Nat) : ¬ ((ps.take (i + 1)).length < 3 ∧ (ps.drop (i + 1)).length < 3) := by
  rw [List.length_take, List.length_drop]
  omega

theorem sum_cost (fit : List P → Option Line) (ps : List P) (h : 5 ≤ ps.length) (i : Nat) (l r : Option Line) (hl : LineOf fit (ps.take (i + 1)) l) (hr : LineOf fit (ps.drop (i + 1)) r) : Cost fit ps i (sigmaSum l r) := by
  cases l with
  | none =>
    cases r with
    | none => exact absurd ⟨hl, hr⟩ (one_line ps h i)
    | some y => exact .right y hl hr
  | some x =>
    cases r with
    | none => exact .left x hl hr
    | some y => exact .both x y hl hr

theorem cost_sum (fit : List P → Option Line) (ps : List P) (i : Nat) (c : Rat) (h : Cost fit ps i c) (l r : Option Line) (hl : LineOf fit (ps.take (i + 1)) l) (hr : LineOf fit (ps.drop (i + 1)) r) : c = sigmaSum l r := by
  cases h with
  | both x y h1 h2 => rw [lineOf_unique _ _ _ _ hl h1, lineOf_unique _ _ _ _ hr h2]; rfl
  | left x h1 h2 => rw [lineOf_unique _ _ _ _ hl h1, lineOf_unique _ _ _ _ hr h2]; rfl
  | right y h1 h2 => rw [lineOf_unique _ _ _ _ hl h1, lineOf_unique _ _ _ _ hr h2]; rfl

/-- What the loop keeps: the sums of the cuts before `i` are not below the limit, and the best is one of them, below 100, the first of its kind. -/
def Inv (fit : List P → Option Line) (ps : List P) (i : Nat) (best : Option Best) : Prop :=
  match best with
  | none => ∀ j < i, ∀ l r, LineOf fit (ps.take (j + 1)) l → LineOf fit (ps.drop (j + 1)) r → 100 ≤ sigmaSum l r
  | some b => b.split < i ∧ b.sigma < 100 ∧ LineOf fit (ps.take (b.split + 1)) b.left ∧ LineOf fit (ps.drop (b.split + 1)) b.right ∧ b.sigma = sigmaSum b.left b.right ∧
      ∀ j < i, ∀ l r, LineOf fit (ps.take (j + 1)) l → LineOf fit (ps.drop (j + 1)) r → b.sigma ≤ sigmaSum l r ∧ (j < b.split → b.sigma < sigmaSum l r)

theorem inv_next (fit : List P → Option Line) (ps : List P) (i : Nat) (best : Option Best) (h : Inv fit ps i best) (l r : Option Line) (hl : LineOf fit (ps.take (i + 1)) l) (hr : LineOf fit (ps.drop (i + 1)) r) :
    Inv fit ps (i + 1) (if sigmaSum l r < limit best then some ⟨i, sigmaSum l r, l, r⟩ else best) := by
  cases best with
  | none =>
    simp only [Inv] at h
    by_cases hs : sigmaSum l r < limit none
    · rw [if_pos hs]
      simp only [limit] at hs
      refine ⟨Nat.lt_succ_self _, hs, hl, hr, rfl, ?_⟩
      intro j hj l' r' hl' hr'
      rcases Nat.lt_succ_iff_lt_or_eq.1 hj with hj | hj
      · have := h j hj l' r' hl' hr'
        dsimp only
        exact ⟨by grind, fun _ => by grind⟩
      · subst hj
        rw [lineOf_unique _ _ _ _ hl' hl, lineOf_unique _ _ _ _ hr' hr]
        exact ⟨by grind, fun h => absurd h (Nat.lt_irrefl _)⟩
    · rw [if_neg hs]
      simp only [limit] at hs
      intro j hj l' r' hl' hr'
      rcases Nat.lt_succ_iff_lt_or_eq.1 hj with hj | hj
      · exact h j hj l' r' hl' hr'
      · subst hj
        rw [lineOf_unique _ _ _ _ hl' hl, lineOf_unique _ _ _ _ hr' hr]
        grind
  | some b =>
    obtain ⟨h1, h2, h3, h4, h5, h6⟩ := h
    by_cases hs : sigmaSum l r < limit (some b)
    · rw [if_pos hs]
      simp only [limit] at hs
      refine ⟨Nat.lt_succ_self _, by dsimp only; grind, hl, hr, rfl, ?_⟩
      intro j hj l' r' hl' hr'
      rcases Nat.lt_succ_iff_lt_or_eq.1 hj with hj | hj
      · have := (h6 j hj l' r' hl' hr').1
        dsimp only
        exact ⟨by grind, fun _ => by grind⟩
      · subst hj
        rw [lineOf_unique _ _ _ _ hl' hl, lineOf_unique _ _ _ _ hr' hr]
        exact ⟨by grind, fun h => absurd h (Nat.lt_irrefl _)⟩
    · rw [if_neg hs]
      simp only [limit] at hs
      refine ⟨by omega, h2, h3, h4, h5, ?_⟩
      intro j hj l' r' hl' hr'
      rcases Nat.lt_succ_iff_lt_or_eq.1 hj with hj | hj
      · exact h6 j hj l' r' hl' hr'
      · subst hj
        rw [lineOf_unique _ _ _ _ hl' hl, lineOf_unique _ _ _ _ hr' hr]
        exact ⟨by grind, fun h => by omega⟩

theorem loop_inv (fit : List P → Option Line) (ps : List P) : ∀ (k i : Nat) (best res : Option Best), Inv fit ps i best → loop fit ps k i best = some res → Inv fit ps (i + k) res := by
  intro k
  induction k with
  | zero => intro i best res h e; cases e; exact h
  | succ k ih =>
    intro i best res h e
    simp only [loop] at e
    split at e
    · cases e
    · rename_i l hl
      split at e
      · cases e
      · rename_i r hr
        have := ih (i + 1) _ res (inv_next fit ps i best h l r (part_line _ _ _ hl) (part_line _ _ _ hr)) e
        rwa [show i + (k + 1) = i + 1 + k by omega]

theorem loop_some (fit : List P → Option Line) (ps : List P) (hf : Fits fit ps) : ∀ (k i : Nat) (best : Option Best), i + k ≤ ps.length → ∃ res, loop fit ps k i best = some res := by
  intro k
  induction k with
  | zero => intro i best _; exact ⟨best, rfl⟩
  | succ k ih =>
    intro i best hi
    obtain ⟨l, hl⟩ := part_some fit (ps.take (i + 1)) (hf i (by omega)).1
    obtain ⟨r, hr⟩ := part_some fit (ps.drop (i + 1)) (hf i (by omega)).2
    simp only [loop, hl, hr]
    exact ih (i + 1) _ (by omega)

theorem loop_none (fit : List P → Option Line) (ps : List P) : ∀ (k i : Nat) (best res : Option Best), loop fit ps k i best = some res → ∀ j, i ≤ j → j < i + k →
    (3 ≤ (ps.take (j + 1)).length → (fit (ps.take (j + 1))).isSome) ∧ (3 ≤ (ps.drop (j + 1)).length → (fit (ps.drop (j + 1))).isSome) := by
  intro k
  induction k with
  | zero => intro i best res _ j h1 h2; omega
  | succ k ih =>
    intro i best res e j h1 h2
    simp only [loop] at e
    split at e
    · cases e
    · rename_i l hl
      split at e
      · cases e
      · rename_i r hr
        by_cases hj : j = i
        · subst hj
          constructor
          · intro h3
            rw [part, if_pos h3] at hl
            cases hf : fit (ps.take (j + 1)) with
            | none => rw [hf] at hl; cases hl
            | some x => rfl
          · intro h3
            rw [part, if_pos h3] at hr
            cases hf : fit (ps.drop (j + 1)) with
            | none => rw [hf] at hr; cases hr
            | some x => rfl
        · exact ih (i + 1) _ res e j (by omega) (by omega)

theorem inv_zero (fit : List P → Option Line) (ps : List P) : Inv fit ps 0 none := fun j hj => absurd hj (Nat.not_lt_zero j)

/-- With three or four points there is a cut that leaves both parts without a line. -/
theorem few_cut (fit : List P → Option Line) (ps : List P) (h : ps.length = 3 ∨ ps.length = 4) : ∃ i, i < ps.length ∧ LineOf fit (ps.take (i + 1)) none ∧ LineOf fit (ps.drop (i + 1)) none ∧ ∀ j < i, LineOf fit (ps.take (j + 1)) none := by
  rcases h with h | h
  · refine ⟨0, by omega, ?_, ?_, fun j hj => absurd hj (Nat.not_lt_zero j)⟩
    · simp only [LineOf, List.length_take]; omega
    · simp only [LineOf, List.length_drop]; omega
  · refine ⟨1, by omega, ?_, ?_, fun j hj => ?_⟩
    · simp only [LineOf, List.length_take]; omega
    · simp only [LineOf, List.length_drop]; omega
    · simp only [LineOf, List.length_take]; omega

/-! ## The claims -/

/-- C243: with at least five points, a cut that is reported is the best of all: no cut costs less, the earlier ones cost more; the lines reported are those of its parts. -/
theorem best_cut_partial (fit : List P → Option Line) (ps : List P) (h5 : 5 ≤ ps.length) (b : Best) (h : axplusb fit ps = .found b) :
    b.split < ps.length ∧ Cost fit ps b.split b.sigma ∧ (∀ j < ps.length, ∀ c, Cost fit ps j c → b.sigma ≤ c ∧ (j < b.split → b.sigma < c)) ∧ LineOf fit (ps.take (b.split + 1)) b.left ∧ LineOf fit (ps.drop (b.split + 1)) b.right := by
  rw [axplusb, if_neg (by omega)] at h
  split at h
  · cases h
  · cases h
  · rename_i b' e
    cases h
    have hi := loop_inv fit ps _ _ _ _ (inv_zero fit ps) e
    rw [Nat.zero_add] at hi
    obtain ⟨h1, h2, h3, h4, h6, h7⟩ := hi
    refine ⟨h1, by rw [h6]; exact sum_cost fit ps h5 _ _ _ h3 h4, ?_, h3, h4⟩
    intro j hj c hc
    cases hc with
    | both x y a1 a2 => exact h7 j hj (some x) (some y) a1 a2
    | left x a1 a2 => exact h7 j hj (some x) none a1 a2
    | right y a1 a2 => exact h7 j hj none (some y) a1 a2

/-- C243: with at least five points and fits that work, a cut is reported exactly if one costs less than 100. -/
theorem found_iff (fit : List P → Option Line) (ps : List P) (h5 : 5 ≤ ps.length) (hf : Fits fit ps) : (∃ b, axplusb fit ps = .found b) ↔ ∃ j < ps.length, ∃ c, Cost fit ps j c ∧ c < 100 := by
  constructor
  · intro ⟨b, h⟩
    obtain ⟨h1, h2, _⟩ := best_cut_partial fit ps h5 b h
    refine ⟨b.split, h1, b.sigma, h2, ?_⟩
    rw [axplusb, if_neg (by omega)] at h
    split at h
    · cases h
    · cases h
    · rename_i b' e
      cases h
      have hi := loop_inv fit ps _ _ _ _ (inv_zero fit ps) e
      exact hi.2.1
  · intro ⟨j, hj, c, hc, hlt⟩
    obtain ⟨res, e⟩ := loop_some fit ps hf ps.length 0 none (by omega)
    rw [axplusb, if_neg (by omega), e]
    cases res with
    | some b => exact ⟨b, rfl⟩
    | none =>
      have hi := loop_inv fit ps _ _ _ _ (inv_zero fit ps) e
      rw [Nat.zero_add] at hi
      exfalso
      obtain ⟨l, hl⟩ := part_some fit (ps.take (j + 1)) (hf j hj).1
      obtain ⟨r, hr⟩ := part_some fit (ps.drop (j + 1)) (hf j hj).2
      have := hi j hj l r (part_line _ _ _ hl) (part_line _ _ _ hr)
      rw [cost_sum fit ps j c hc l r (part_line _ _ _ hl) (part_line _ _ _ hr)] at hlt
      grind

/-- C243: the program dies exactly if a fit that is tried fails; with less than three points it says so. -/
theorem dies_iff (fit : List P → Option Line) (ps : List P) : (axplusb fit ps = .dies ↔ 3 ≤ ps.length ∧ ¬ Fits fit ps) ∧ (axplusb fit ps = .few ↔ ps.length < 3) := by
  by_cases h3 : ps.length < 3
  · rw [axplusb, if_pos h3]
    exact ⟨⟨fun h => (by cases h), fun h => absurd h.1 (by omega)⟩, ⟨fun _ => h3, fun _ => rfl⟩⟩
  · rw [axplusb, if_neg h3]
    constructor
    · constructor
      · intro h
        refine ⟨by omega, fun hf => ?_⟩
        obtain ⟨res, e⟩ := loop_some fit ps hf ps.length 0 none (by omega)
        rw [e] at h
        cases res <;> cases h
      · intro ⟨_, hf⟩
        cases e : loop fit ps ps.length 0 none with
        | none => rfl
        | some res =>
          exfalso
          apply hf
          intro i hi
          exact loop_none fit ps _ _ _ _ e i (Nat.zero_le _) (by omega)
    · constructor
      · intro h
        split at h <;> cases h
      · intro h
        exact absurd h h3

/-- C243: a sum of 100 or more is never reported, however good the lines are for the size of the data. -/
theorem large_false (fit : List P → Option Line) (ps : List P) (h5 : 5 ≤ ps.length) (hf : Fits fit ps) (hs : ∀ qs l, fit qs = some l → 50 ≤ l.sigma) : axplusb fit ps = .nothing := by
  have hn : ¬ ∃ b, axplusb fit ps = .found b := by
    rw [found_iff fit ps h5 hf]
    intro ⟨j, _, c, hc, hlt⟩
    cases hc with
    | both x y a1 a2 => have := hs _ _ a1.2; have := hs _ _ a2.2; grind
    | left x a1 a2 => have := hs _ _ a1.2; grind
    | right y a1 a2 => have := hs _ _ a2.2; grind
  cases h : axplusb fit ps with
  | found b => exact absurd ⟨b, h⟩ hn
  | few => exact absurd ((dies_iff fit ps).2.1 h) (by omega)
  | dies => exact absurd hf ((dies_iff fit ps).1.1 h).2
  | nothing => rfl

/-- C243: with three or four points the cut that leaves no line at all counts as perfect, so no line is reported although one could be fitted, unless its deviation is 0. -/
theorem few_points_false (fit : List P → Option Line) (ps : List P) (h : ps.length = 3 ∨ ps.length = 4) (hf : Fits fit ps) (hs : ∀ qs l, fit qs = some l → 0 < l.sigma) : ∃ b, axplusb fit ps = .found b ∧ b.left = none ∧ b.right = none := by
  obtain ⟨i, hi, hl, hr, _⟩ := few_cut fit ps h
  obtain ⟨res, e⟩ := loop_some fit ps hf ps.length 0 none (by omega)
  have hinv := loop_inv fit ps _ _ _ _ (inv_zero fit ps) e
  rw [Nat.zero_add] at hinv
  rw [axplusb, if_neg (by omega), e]
  cases res with
  | none =>
    have := hinv i hi none none hl hr
    simp only [sigmaSum] at this
    grind
  | some b =>
    obtain ⟨_, _, h3, h4, h5, h6⟩ := hinv
    have := (h6 i hi none none hl hr).1
    refine ⟨b, rfl, ?_⟩
    rw [h5] at this
    cases hbl : b.left with
    | none =>
      cases hbr : b.right with
      | none => exact ⟨rfl, rfl⟩
      | some y =>
        rw [hbl, hbr] at this
        rw [hbr] at h4
        have := hs _ _ h4.2
        simp only [sigmaSum] at *
        grind
    | some x =>
      rw [hbl] at h3
      have h7 := hs _ _ h3.2
      cases hbr : b.right with
      | none =>
        rw [hbl, hbr] at this
        simp only [sigmaSum] at *
        grind
      | some y =>
        rw [hbl, hbr] at this
        rw [hbr] at h4
        have := hs _ _ h4.2
        simp only [sigmaSum] at *
        grind

/-- Six points, with a fit whose deviation is the spread of the values: the cut is found behind the third point. -/
def spread (ps : List Rat) : Option Line := some ⟨(ps.foldl max 0) - (ps.foldl min 1000), 0, 0⟩

example : axplusb spread [1, 1, 1, 9, 9, 9] = .found ⟨2, 0, some ⟨0, 0, 0⟩, some ⟨0, 0, 0⟩⟩ := by decide +kernel

/-- The hypotheses of the two false claims can be met. -/
example : Fits (fun _ : List Rat => some ⟨50, 0, 0⟩) [1, 2, 3, 4, 5] ∧ Fits (fun _ : List Rat => some ⟨1, 0, 0⟩) [1, 2, 3] := ⟨fun _ _ => ⟨fun _ => rfl, fun _ => rfl⟩, fun _ _ => ⟨fun _ => rfl, fun _ => rfl⟩⟩

end Verif.Mercury.Split
