import Verif.Mercury.Colors

/-! # The styles of a stacked bar plot (C249) -/

namespace Verif.Mercury.Colors

open Verif.Deptool.Deps (Text)

/-! ## Specification: the documentation (lines 554-560) -/

/-- A number without sign. -/
def Number (t : Text) : Prop := t ≠ [] ∧ ∀ c ∈ t, c.isDigit = true

/-- An entry of the list and the style of gnuplot it stands for. -/
def Style (e s : Text) : Prop :=
  (∃ n, Number n ∧ e = 'p' :: n ∧ s = "fs pattern ".toList ++ n ++ " lt -1".toList) ∨
  (∃ a b, Number a ∧ Number b ∧ e = 'g' :: (a ++ '.' :: b) ∧ s = "fs solid ".toList ++ (a ++ '.' :: b) ++ " lt -1".toList)

/-- Every entry has its style, in order. -/
def Styles : List Text → List Text → Prop
  | [], [] => True
  | e :: es, s :: ss => Style e s ∧ Styles es ss
  | _, _ => False

/-- Entries with commas between them. -/
def commas : List Text → Text
  | [] => []
  | [e] => e
  | e :: es => e ++ ',' :: commas es

/-- What the option can be: not empty, no blanks (`\S+`). -/
def OptionText (t : Text) : Prop := t ≠ [] ∧ ∀ c ∈ t, c ∉ [' ', '\t', '\n', '\r', '\x0c', '\x0b']

/-! ## Lemmas -/

theorem fields_ne (t : Text) : fields t ≠ [] := by
  induction t with
  | nil => simp [fields]
  | cons c t ih =>
    unfold fields
    split
    · simp
    · split <;> simp

theorem fields_commas (t : Text) : commas (fields t) = t := by
  induction t with
  | nil => rfl
  | cons c t ih =>
    unfold fields
    split
    · rename_i h
      cases hf : fields t with
      | nil => exact absurd hf (fields_ne t)
      | cons f fs =>
        rw [hf] at ih
        show [] ++ ',' :: commas (f :: fs) = _
        rw [ih, h]
        rfl
    · split
      · rename_i f fs hf
        rw [hf] at ih
        cases fs with
        | nil => simp only [commas] at ih ⊢; rw [ih]
        | cons g gs => simp only [commas, List.cons_append] at ih ⊢; rw [ih]
      · rename_i hf
        exact absurd hf (fields_ne t)

theorem fields_plain (e : Text) (h : ',' ∉ e) : fields e = [e] := by
  induction e with
  | nil => rfl
  | cons c e ih =>
    simp only [List.mem_cons, not_or] at h
    unfold fields
    rw [if_neg (fun he => h.1 he.symm), ih h.2]

theorem fields_append (e r : Text) (h : ',' ∉ e) : fields (e ++ ',' :: r) = e :: fields r := by
  induction e with
  | nil => simp [fields]
  | cons c e ih =>
    simp only [List.mem_cons, not_or] at h
    simp only [List.cons_append]
    rw [fields, if_neg (fun he => h.1 he.symm), ih h.2]

theorem commas_fields (es : List Text) (hne : es ≠ []) (h : ∀ e ∈ es, ',' ∉ e) : fields (commas es) = es := by
  induction es with
  | nil => exact absurd rfl hne
  | cons e es ih =>
    cases es with
    | nil => exact fields_plain e (h e (by simp))
    | cons f fs =>
      show fields (e ++ ',' :: commas (f :: fs)) = _
      rw [fields_append _ _ (h e (by simp)), ih (by simp) (fun x hx => h x (by simp [hx]))]

theorem fields_mem (t : Text) : ∀ f ∈ fields t, ∀ c ∈ f, c ∈ t ∧ c ≠ ',' := by
  induction t with
  | nil => simp [fields]
  | cons c t ih =>
    intro f hf x hx
    unfold fields at hf
    split at hf
    · simp only [List.mem_cons] at hf
      rcases hf with rfl | hf
      · cases hx
      · exact ⟨List.mem_cons_of_mem _ (ih f hf x hx).1, (ih f hf x hx).2⟩
    · rename_i hc
      split at hf
      · rename_i g gs hg
        simp only [List.mem_cons] at hf
        rcases hf with rfl | hf
        · simp only [List.mem_cons] at hx
          rcases hx with rfl | hx
          · exact ⟨by simp, hc⟩
          · have := ih g (by simp [hg]) x hx
            exact ⟨List.mem_cons_of_mem _ this.1, this.2⟩
        · have := ih f (by simp [hg, hf]) x hx
          exact ⟨List.mem_cons_of_mem _ this.1, this.2⟩
      · rename_i hg
        exact absurd hg (fields_ne t)

theorem space_iff (c : Char) : isSpace c = true ↔ c ∈ [' ', '\t', '\n', '\r', '\x0c', '\x0b'] := by
  simp [isSpace]

theorem noblank (t : Text) (h : ∀ c ∈ t, isSpace c = false) : t.dropWhile isSpace = t := by
  cases t with
  | nil => rfl
  | cons c t => rw [List.dropWhile_cons, h c (by simp)]; rfl

/-- On a text without blanks only the commas count. -/
theorem split_solid (t : Text) (h : ∀ c ∈ t, c ∉ [' ', '\t', '\n', '\r', '\x0c', '\x0b']) : split t = dropEmpty (fields t) := by
  unfold split
  congr 1
  have hall : ∀ f ∈ fields t, f.dropWhile isSpace = f := by
    intro f hf
    refine noblank f fun c hc => ?_
    have := h c (fields_mem t f hf c hc).1
    rw [← space_iff] at this
    simpa using this
  cases hf : fields t with
  | nil => rfl
  | cons f fs =>
    rw [hf] at hall
    simp only [List.cons.injEq, true_and]
    conv => rhs; rw [← List.map_id fs]
    exact List.map_congr_left fun g hg => hall g (by simp [hg])

theorem dropWhile_split {f : Text → Bool} (l : List Text) : ∃ a, l = a ++ l.dropWhile f ∧ ∀ x ∈ a, f x = true := by
  induction l with
  | nil => exact ⟨[], rfl, by simp⟩
  | cons x l ih =>
    rw [List.dropWhile_cons]
    by_cases h : f x = true
    · obtain ⟨a, ha, hb⟩ := ih
      refine ⟨x :: a, ?_, ?_⟩
      · rw [if_pos h, List.cons_append, ← ha]
      · intro y hy
        simp only [List.mem_cons] at hy
        rcases hy with rfl | hy
        · exact h
        · exact hb y hy
    · exact ⟨[], by rw [if_neg h]; rfl, by simp⟩

theorem dropEmpty_split (fs : List Text) : ∃ k, fs = dropEmpty fs ++ List.replicate k [] := by
  obtain ⟨a, ha, hb⟩ := dropWhile_split (f := (· = [])) fs.reverse
  refine ⟨a.length, ?_⟩
  have : a = List.replicate a.length [] := by
    rw [List.eq_replicate_iff]
    exact ⟨rfl, fun x hx => by simpa using hb x hx⟩
  unfold dropEmpty
  have h2 := congrArg List.reverse ha
  rw [List.reverse_reverse, List.reverse_append] at h2
  rw [this, List.reverse_replicate] at h2
  exact h2

theorem dropEmpty_eq (es : List Text) (k : Nat) (h : ∀ e ∈ es, e ≠ []) : dropEmpty (es ++ List.replicate k []) = es := by
  unfold dropEmpty
  rw [List.reverse_append, List.reverse_replicate]
  have : ∀ n, (List.replicate n ([] : Text) ++ es.reverse).dropWhile (· = []) = es.reverse := by
    intro n
    induction n with
    | zero =>
      simp only [List.replicate_zero, List.nil_append]
      cases hr : es.reverse with
      | nil => rfl
      | cons x r =>
        have : x ∈ es := by
          have : x ∈ es.reverse := by simp [hr]
          simpa using this
        rw [List.dropWhile_cons, if_neg (by simpa using h x this)]
    | succ n ih => rw [List.replicate_succ, List.cons_append, List.dropWhile_cons]; simpa using ih
  rw [this, List.reverse_reverse]

theorem commas_trail (es : List Text) (hne : es ≠ []) (k : Nat) : commas (es ++ List.replicate k []) = commas es ++ List.replicate k ',' := by
  induction es with
  | nil => exact absurd rfl hne
  | cons e es ih =>
    cases es with
    | nil =>
      have : ∀ k e, commas (e :: List.replicate k []) = e ++ List.replicate k ',' := by
        intro k
        induction k with
        | zero => intro e; simp [commas]
        | succ k ih =>
          intro e
          rw [List.replicate_succ]
          show e ++ ',' :: commas ([] :: List.replicate k []) = _
          rw [ih []]
          rfl
      exact this k e
    | cons f fs =>
      show e ++ ',' :: commas ((f :: fs) ++ List.replicate k []) = (e ++ ',' :: commas (f :: fs)) ++ _
      rw [ih (by simp)]
      simp

theorem trimEnd_plain (t : Text) (h : '\n' ∉ t) : trimEnd t = t := by
  unfold trimEnd
  rw [if_neg]
  intro he
  exact h (List.mem_of_getLast? he)

theorem isDigits_iff (t : Text) : isDigits t = true ↔ Number t := by
  unfold isDigits Number
  simp

theorem take_append {f : Char → Bool} (a b : Text) (ha : ∀ c ∈ a, f c = true) (x : Char) (hx : f x = false) :
    (a ++ x :: b).takeWhile f = a ∧ (a ++ x :: b).dropWhile f = x :: b := by
  induction a with
  | nil => simp [hx]
  | cons c a ih =>
    have hc := ha c (by simp)
    have := ih fun y hy => ha y (by simp [hy])
    simp [hc, this]

theorem digit_not (c : Char) (h : c.isDigit = true) : c ≠ ',' ∧ c ≠ '\n' ∧ c ≠ '.' := by
  refine ⟨?_, ?_, ?_⟩ <;> rintro rfl <;> exact absurd h (by decide)

theorem style_plain (e s : Text) (h : Style e s) : e ≠ [] ∧ ',' ∉ e ∧ '\n' ∉ e := by
  rcases h with ⟨n, hn, rfl, -⟩ | ⟨a, b, ha, hb, rfl, -⟩
  · refine ⟨by simp, ?_, ?_⟩
    · intro hm
      simp only [List.mem_cons] at hm
      rcases hm with h | h
      · exact absurd h (by decide)
      · exact (digit_not _ (hn.2 _ h)).1 rfl
    · intro hm
      simp only [List.mem_cons] at hm
      rcases hm with h | h
      · exact absurd h (by decide)
      · exact (digit_not _ (hn.2 _ h)).2.1 rfl
  · refine ⟨by simp, ?_, ?_⟩
    · intro hm
      simp only [List.mem_cons, List.mem_append] at hm
      rcases hm with h | h | h | h
      · exact absurd h (by decide)
      · exact (digit_not _ (ha.2 _ h)).1 rfl
      · exact absurd h (by decide)
      · exact (digit_not _ (hb.2 _ h)).1 rfl
    · intro hm
      simp only [List.mem_cons, List.mem_append] at hm
      rcases hm with h | h | h | h
      · exact absurd h (by decide)
      · exact (digit_not _ (ha.2 _ h)).2.1 rfl
      · exact absurd h (by decide)
      · exact (digit_not _ (hb.2 _ h)).2.1 rfl

theorem entry_iff (e s : Text) (hnl : '\n' ∉ e) : entry e = some s ↔ Style e s := by
  unfold entry
  rw [trimEnd_plain e hnl]
  constructor
  · intro h
    split at h
    · rename_i ds
      split at h
      · rename_i hd
        cases h
        exact Or.inl ⟨ds, (isDigits_iff _).mp hd, rfl, rfl⟩
      · cases h
    · rename_i r
      split at h
      · rename_i fr hfr
        split at h
        · rename_i hd
          cases h
          simp only [Bool.and_eq_true, isDigits_iff] at hd
          have hr : r = r.takeWhile Char.isDigit ++ '.' :: fr := by
            rw [← hfr, List.takeWhile_append_dropWhile]
          refine Or.inr ⟨r.takeWhile Char.isDigit, fr, hd.1, hd.2, ?_, ?_⟩
          · rw [← hr]
          · rw [← hr]; rfl
        · cases h
      · cases h
    · cases h
  · rintro (⟨n, hn, rfl, rfl⟩ | ⟨a, b, ha, hb, rfl, rfl⟩)
    · simp only [(isDigits_iff n).mpr hn, if_true]
      rfl
    · obtain ⟨h1, h2⟩ := take_append a b ha.2 '.' (by decide)
      simp only [h1, h2, (isDigits_iff a).mpr ha, (isDigits_iff b).mpr hb, Bool.and_self, if_true]
      rfl

theorem entries_iff (es l : List Text) (h : ∀ e ∈ es, '\n' ∉ e) : entries es = some l ↔ Styles es l := by
  induction es generalizing l with
  | nil => cases l <;> simp [entries, Styles]
  | cons e es ih =>
    have h1 := fun s => entry_iff e s (h e (by simp))
    have h2 := fun l => ih l fun x hx => h x (by simp [hx])
    cases l with
    | nil =>
      simp only [entries, Styles, iff_false]
      split <;> simp
    | cons s l =>
      simp only [entries, Styles, ← h1, ← h2]
      split
      · rename_i s' l' e1 e2
        simp [e1, e2]
      · rename_i hx
        simp only [false_iff, not_and, reduceCtorEq]
        intro e1 e2
        exact hx _ _ e1 e2

theorem styles_plain (es l : List Text) (h : Styles es l) : ∀ e ∈ es, e ≠ [] ∧ ',' ∉ e := by
  induction es generalizing l with
  | nil => simp
  | cons e es ih =>
    cases l with
    | nil => exact h.elim
    | cons s l =>
      intro x hx
      simp only [List.mem_cons] at hx
      rcases hx with rfl | hx
      · exact ⟨(style_plain _ _ h.1).1, (style_plain _ _ h.1).2.1⟩
      · exact ih l h.2 x hx

/-! ## C249 -/

/-- The option as documented: a list of patterns and grays gives their styles, in order. Exactly what is accepted, for any option that is
not one of the three names: also commas at the end. -/
theorem colors_iff (c : Text) (hc : OptionText c) (hn : c ∉ ["color".toList, "6-grays".toList, "4-grays".toList]) (l : List Text) :
    barplotColors c = some l ↔ ∃ es k, c = commas es ++ List.replicate k ',' ∧ Styles es l := by
  simp only [List.mem_cons, List.not_mem_nil, or_false, not_or] at hn
  unfold barplotColors
  rw [if_neg (show ¬ c = ['c', 'o', 'l', 'o', 'r'] from hn.1), if_neg (show ¬ c = ['6', '-', 'g', 'r', 'a', 'y', 's'] from hn.2.1),
    if_neg (show ¬ c = ['4', '-', 'g', 'r', 'a', 'y', 's'] from hn.2.2), split_solid c hc.2]
  obtain ⟨k, hk⟩ := dropEmpty_split (fields c)
  have hnl : ∀ e ∈ dropEmpty (fields c), '\n' ∉ e := by
    intro e he hm
    have : e ∈ fields c := by rw [hk]; exact List.mem_append_left _ he
    exact hc.2 _ (fields_mem c e this _ hm).1 (by decide)
  rw [entries_iff _ _ hnl]
  constructor
  · intro h
    by_cases hne : dropEmpty (fields c) = []
    · have h2 : commas (fields c) = c := fields_commas c
      rw [hk, hne] at h2
      refine ⟨[], k - 1, ?_, by rw [hne] at h; exact h⟩
      cases k with
      | zero => exact absurd h2.symm hc.1
      | succ k =>
        have := commas_trail [[]] (by simp) k
        simp only [List.cons_append, List.nil_append, commas] at this
        rw [← h2, List.nil_append, List.replicate_succ, this]
        simp [commas]
    · refine ⟨_, k, ?_, h⟩
      rw [← commas_trail _ hne, ← hk, fields_commas]
  · rintro ⟨es, k, rfl, hs⟩
    have hp := styles_plain es l hs
    have key : dropEmpty (fields (commas es ++ List.replicate k ',')) = es := by
      by_cases hne : es = []
      · subst hne
        have : commas ([] ++ List.replicate (k + 1) []) = List.replicate k ',' := by
          have := commas_trail [[]] (by simp) k
          simpa [commas, List.replicate_succ] using this
        show dropEmpty (fields (List.replicate k ',')) = []
        rw [← this, commas_fields _ (by simp) (by simp [List.mem_replicate])]
        exact dropEmpty_eq [] (k + 1) (by simp)
      · rw [← commas_trail es hne, commas_fields]
        · exact dropEmpty_eq es k fun e he => (hp e he).1
        · simp [hne]
        · intro e he
          simp only [List.mem_append, List.mem_replicate] at he
          rcases he with he | ⟨-, rfl⟩
          · exact (hp e he).2
          · simp
    rw [key]
    exact hs

/-- The three names: one style for colours; alternating patterns and grays. -/
theorem colors_named : barplotColors "color".toList = some [[]] ∧
    (∃ l, barplotColors "6-grays".toList = some l ∧
      Styles (["p1", "g0.00", "p2", "g0.20", "p4", "g0.40", "p5", "g0.60", "p6", "g0.80", "p7", "g1.00"].map String.toList) l) ∧
    (∃ l, barplotColors "4-grays".toList = some l ∧
      Styles (["p1", "g0.00", "p2", "g0.33", "p4", "g0.66", "p5", "g1.00"].map String.toList) l) := by
  refine ⟨by decide, ?_, ?_⟩
  · have h : split six = ["p1", "g0.00", "p2", "g0.20", "p4", "g0.40", "p5", "g0.60", "p6", "g0.80", "p7", "g1.00"].map String.toList := by decide +kernel
    have he : (entries (split six)).isSome = true := by decide +kernel
    obtain ⟨l, hl⟩ := Option.isSome_iff_exists.mp he
    refine ⟨l, hl, ?_⟩
    rw [← h, ← entries_iff _ _ (by decide +kernel)]
    exact hl
  · have h : split four = ["p1", "g0.00", "p2", "g0.33", "p4", "g0.66", "p5", "g1.00"].map String.toList := by decide +kernel
    have he : (entries (split four)).isSome = true := by decide +kernel
    obtain ⟨l, hl⟩ := Option.isSome_iff_exists.mp he
    refine ⟨l, hl, ?_⟩
    rw [← h, ← entries_iff _ _ (by decide +kernel)]
    exact hl

theorem rotate_get (l : List Text) (hl : l ≠ []) (i : Nat) : (rotate l)[i % l.length]? = l[(i + 1) % l.length]? ∧ (rotate l).length = l.length := by
  cases l with
  | nil => exact absurd rfl hl
  | cons c cs =>
    refine ⟨?_, by simp [rotate]⟩
    simp only [rotate, List.length_cons]
    have hlt := Nat.mod_lt i (show 0 < cs.length + 1 by omega)
    by_cases h : i % (cs.length + 1) = cs.length
    · have : (i + 1) % (cs.length + 1) = 0 := by
        rw [Nat.add_mod, h]
        by_cases h0 : cs.length = 0
        · simp [h0]
        · rw [Nat.mod_eq_of_lt (show 1 < cs.length + 1 by omega), Nat.mod_self]
      rw [this, h]
      simp
    · have h1 : i % (cs.length + 1) < cs.length := by omega
      have : (i + 1) % (cs.length + 1) = i % (cs.length + 1) + 1 := by
        rw [Nat.add_mod]
        rw [Nat.mod_eq_of_lt (show 1 < cs.length + 1 by omega), Nat.mod_eq_of_lt (by omega)]
      rw [this, List.getElem?_append_left h1]
      simp

theorem further_get (ks : List Nat) (cols : List Text) (hc : cols ≠ []) (i : Nat) :
    (further cols ks)[i]? = ks[i]?.map fun k => (k, cols[(i + 1) % cols.length]?.getD []) := by
  induction ks generalizing cols i with
  | nil => simp [further]
  | cons k ks ih =>
    have hlen := (rotate_get cols hc 0).2
    have hr : rotate cols ≠ [] := by
      intro h
      rw [h] at hlen
      exact hc (List.length_eq_zero_iff.mp hlen.symm)
    cases i with
    | zero =>
      simp only [further, List.getElem?_cons_zero, Option.map_some, Option.some.injEq, Prod.mk.injEq, true_and]
      rw [← (rotate_get cols hc 0).1, Nat.zero_mod]
      cases hx : rotate cols with
      | nil => exact absurd hx hr
      | cons a b => rfl
    | succ i =>
      simp only [further, List.getElem?_cons_succ]
      rw [ih (rotate cols) hr i, hlen, (rotate_get cols hc (i + 1)).1]

/-- One series for each minor value, from the second column on; the styles are used in order, again from the first after the last. -/
theorem series_cyclic (cols : List Text) (hc : cols ≠ []) (n : Nat) (hn : 0 < n) : (series cols n).length = n ∧
    ∀ i, i < n → ∃ s, cols[i % cols.length]? = some s ∧ (series cols n)[i]? = some (i + 2, s) := by
  have hpos : 0 < cols.length := List.length_pos_iff.mpr hc
  constructor
  · have : ∀ (ks : List Nat) (c : List Text), (further c ks).length = ks.length := by
      intro ks
      induction ks with
      | nil => intro c; rfl
      | cons k ks ih => intro c; simp [further, ih]
    simp only [series, List.length_cons, this, List.length_map, List.length_range]
    omega
  · intro i hi
    have hlt := Nat.mod_lt i hpos
    refine ⟨cols[i % cols.length], List.getElem?_eq_getElem hlt, ?_⟩
    cases i with
    | zero =>
      simp only [series, List.getElem?_cons_zero, Nat.zero_mod]
      cases cols with
      | nil => exact absurd rfl hc
      | cons a b => rfl
    | succ i =>
      simp only [series, List.getElem?_cons_succ]
      rw [further_get _ _ hc, List.getElem?_map, List.getElem?_range (by omega), List.getElem?_eq_getElem hlt]
      rfl

/-- False: that an option of the wrong form is refused. Commas alone are accepted and give no style, and a density may exceed 1. -/
theorem refused_false : barplotColors [','] = some [] ∧ (∀ n, ∀ e ∈ series [] n, e.2 = []) ∧
    barplotColors ['g', '7', '.', '5'] = some [gPrefix ++ ['7', '.', '5'] ++ suffix] := by
  refine ⟨by decide, ?_, by decide⟩
  intro n e he
  have : ∀ (ks : List Nat) (c : List Text), (c = [] ∨ c = [[]]) → ∀ e ∈ further c ks, e.2 = [] := by
    intro ks
    induction ks with
    | nil => intro c _ e he; cases he
    | cons k ks ih =>
      intro c hc e he
      have hr : rotate c = [[]] := by rcases hc with rfl | rfl <;> rfl
      simp only [further, List.mem_cons, hr] at he
      rcases he with rfl | he
      · rfl
      · exact ih _ (Or.inr rfl) e he
  simp only [series, List.mem_cons] at he
  rcases he with rfl | he
  · rfl
  · exact this _ _ (Or.inl rfl) e he

/-- False: that a query without rows plots nothing: one series is plotted. -/
theorem empty_false (cols : List Text) : (series cols 0).length = 1 := rfl

/-! ### The hypotheses are met -/

example : OptionText ['p', '1', ',', 'g', '0', '.', '5', ','] ∧
    (∃ es k, ['p', '1', ',', 'g', '0', '.', '5', ','] = commas es ++ List.replicate k ',' ∧ k = 1 ∧ es.length = 2) :=
  ⟨⟨by decide, by decide⟩, [['p', '1'], ['g', '0', '.', '5']], 1, rfl, rfl, rfl⟩

example : series [['a'], ['b']] 3 = [(2, ['a']), (3, ['b']), (4, ['a'])] := by decide

end Verif.Mercury.Colors
