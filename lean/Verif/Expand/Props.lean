import Verif.Expand.Lemmas

/-! # Expanding texts (C119) -/

namespace Verif.Expand
open Verif

/-! ## Templates -/

/-- What a template is replaced by. -/
def tkids (t : Template) : List Template :=
  match t.rest with
  | [] => []
  | g :: gs => (groupTexts g.1).map fun v => ⟨t.lit ++ v ++ g.2, gs⟩

theorem groupTexts_digits {g : List Item} (hw : ∀ i ∈ g, i.Wf) : ∀ v ∈ groupTexts g, '[' ∉ v := by
  intro v hv
  simp only [groupTexts, List.mem_flatMap] at hv
  obtain ⟨i, hi, hv⟩ := hv
  have := bitTexts_item (hw i hi)
  cases ht : i.texts with
  | none => rw [ht] at hv; simp at hv
  | some l =>
    rw [ht] at this hv
    exact bitTexts_digits (l := l) this v (by simpa using hv)

theorem tkids_wf {t : Template} (h : t.Wf) : ∀ u ∈ tkids t, u.Wf := by
  intro u hu
  unfold tkids at hu
  cases hr : t.rest with
  | nil => rw [hr] at hu; simp at hu
  | cons g gs =>
    rw [hr] at hu
    simp only [List.mem_map] at hu
    obtain ⟨v, hv, rfl⟩ := hu
    have hg := h.2 g (by rw [hr]; simp)
    refine ⟨?_, fun k hk => h.2 k (by rw [hr]; simp [hk])⟩
    simp only [List.mem_append, not_or]
    exact ⟨⟨h.1, groupTexts_digits hg.2.1 v hv⟩, hg.2.2⟩

theorem findGroup_template {t : Template} (h : t.Wf) : findGroup t.render = none ↔ t.rest = [] := by
  obtain ⟨lit, rest⟩ := t
  cases rest with
  | nil => simp [Template.render, renderRest, findGroup_lit h.1]
  | cons g gs =>
    have hg := h.2 g (by simp)
    have := findGroup_group (suf := g.2 ++ renderRest gs) h.1 (renderItems_inGroup hg.2.1)
    simp only [Template.render, renderRest]
    simp only [List.cons_append, List.append_assoc] at this ⊢
    rw [this]
    simp

theorem kids_template {t : Template} (h : t.Wf) :
    kids t.render = if (∀ g, t.rest.head? = some g → ∀ i ∈ g.1, i.texts ≠ none) then some ((tkids t).map Template.render) else none := by
  obtain ⟨lit, rest⟩ := t
  cases rest with
  | nil => simp [kids, (findGroup_template h).2 rfl, tkids]
  | cons g gs =>
    have hg := h.2 g (by simp)
    have := findGroup_group (suf := g.2 ++ renderRest gs) h.1 (renderItems_inGroup hg.2.1)
    unfold kids
    simp only [Template.render, renderRest]
    simp only [List.cons_append, List.append_assoc] at this ⊢
    rw [this]
    simp only []
    rw [splitComma_items hg.1 hg.2.1, bitsTexts_items hg.2.1]
    by_cases hh : ∀ i ∈ g.1, i.texts ≠ none
    · rw [if_pos hh, if_pos (by simpa using hh)]
      simp [tkids, Template.render, Function.comp_def]
    · rw [if_neg hh, if_neg (by simpa using hh)]

theorem texts_nonempty {i : Item} {l : List Str} (h : i.texts = some l) : l ≠ [] := by
  cases i with
  | num ds => simp only [Item.texts, Option.some.injEq] at h; subst h; simp
  | range a b s =>
    simp only [Item.texts] at h
    split at h
    · simp only [Option.some.injEq] at h
      subst h
      simp [progression]
    · cases h

theorem groupTexts_nonempty {g : List Item} (hg : g ≠ []) (h : ∀ i ∈ g, i.texts ≠ none) : groupTexts g ≠ [] := by
  cases g with
  | nil => exact absurd rfl hg
  | cons i is =>
    cases ht : i.texts with
    | none => exact absurd ht (h i (by simp))
    | some l => simp [groupTexts, ht, texts_nonempty ht]

theorem product_tkids {t : Template} {g : List Item × Str} {gs : List (List Item × Str)} (h : t.rest = g :: gs) : t.product = (tkids t).flatMap Template.product := by
  unfold Template.product tkids
  rw [h]
  simp only [combos, List.flatMap_map]

/-- The result for several texts: those with fewer brackets first, otherwise in order. -/
def byBrackets (n : Nat) (ts : List Template) : List Str := (List.range (n + 1)).flatMap fun k => (ts.filter fun t => t.rest.length = k).flatMap Template.product

theorem byBrackets_succ (n : Nat) (ts : List Template) :
    byBrackets (n + 1) ts = ((ts.filter fun t => t.rest.length = 0).map Template.lit) ++ byBrackets n (ts.flatMap tkids) := by
  unfold byBrackets
  rw [List.range_succ_eq_map, List.flatMap_cons, List.flatMap_map]
  congr 1
  · rw [List.flatMap_def]
    have : (ts.filter fun t => t.rest.length = 0).map Template.product = (ts.filter fun t => t.rest.length = 0).map fun t => [t.lit] := by
      apply List.map_congr_left
      intro t ht
      simp only [List.mem_filter, decide_eq_true_eq, List.length_eq_zero_iff] at ht
      simp [Template.product, ht.2, combos]
    rw [this, ← List.flatMap_def, ← List.map_eq_flatMap]
  · congr 1
    funext k
    induction ts with
    | nil => rfl
    | cons t ts ih =>
      rw [List.flatMap_cons, List.filter_append, List.flatMap_append, ← ih, List.filter_cons]
      cases hr : t.rest with
      | nil => simp [tkids, hr]
      | cons g gs =>
        have hl : ∀ u ∈ tkids t, u.rest.length = gs.length := by
          intro u hu
          unfold tkids at hu
          rw [hr] at hu
          simp only [List.mem_map] at hu
          obtain ⟨v, _, rfl⟩ := hu
          rfl
        by_cases hk : gs.length = k
        · have hf : ((tkids t).filter fun t => t.rest.length = k) = tkids t := List.filter_eq_self.2 (by intro u hu; simp [hl u hu, hk])
          rw [if_pos (by simp [hk]), List.flatMap_cons, product_tkids hr, hf]
        · have hf : ((tkids t).filter fun t => t.rest.length = k) = [] := List.filter_eq_nil_iff.2 (by intro u hu; simp [hl u hu, hk])
          rw [if_neg (by simp; omega), hf]
          simp

theorem Ev_templates : ∀ (n : Nat) (ts : List Template), (∀ t ∈ ts, t.Wf ∧ t.rest.length ≤ n) → ∀ ret : List Str,
    ((∀ t ∈ ts, t.Good) → Ev (ts.map Template.render) ret (.ok (ret ++ byBrackets n ts))) ∧
    ((∃ t ∈ ts, ¬ t.Good) → Ev (ts.map Template.render) ret .abort) := by
  intro n
  induction n with
  | zero =>
    intro ts hts ret
    have h0 : ∀ t ∈ ts, t.rest = [] := fun t ht => List.length_eq_zero_iff.1 (by have := (hts t ht).2; omega)
    constructor
    · intro _
      have hk : ∀ s ∈ ts.map Template.render, kids s = some [] := by
        intro s hs
        simp only [List.mem_map] at hs
        obtain ⟨t, ht, rfl⟩ := hs
        unfold kids
        rw [(findGroup_template (hts t ht).1).2 (h0 t ht)]
      have := Ev_gen (ts.map Template.render) (fun s hs => by rw [hk s hs]; simp) [] ret (.ok (ret ++ byBrackets 0 ts)) (by
        have e : ((ts.map Template.render).flatMap fun s => (kids s).getD []) = [] := by
          rw [List.flatMap_eq_nil_iff]
          intro s hs
          rw [hk s hs]; rfl
        rw [e]
        have e2 : ((ts.map Template.render).filter fun s => (findGroup s).isNone) = byBrackets 0 ts := by
          rw [List.filter_eq_self.2]
          · unfold byBrackets
            simp only [Nat.zero_add, List.range_one, List.flatMap_cons, List.flatMap_nil, List.append_nil]
            rw [List.filter_eq_self.2 (by intro t ht; simp [h0 t ht])]
            rw [List.flatMap_def]
            have : ts.map Template.product = ts.map fun t => [t.render] := by
              apply List.map_congr_left
              intro t ht
              simp [Template.product, h0 t ht, combos, Template.render, renderRest]
            rw [this, ← List.flatMap_def, ← List.map_eq_flatMap]
          · intro s hs
            simp only [List.mem_map] at hs
            obtain ⟨t, ht, rfl⟩ := hs
            simp [(findGroup_template (hts t ht).1).2 (h0 t ht)]
        rw [e2]
        exact Ev_nil _)
      simpa using this
    · rintro ⟨t, ht, hb⟩
      exfalso
      apply hb
      intro g hg
      rw [h0 t ht] at hg
      simp at hg
  | succ n ih =>
    intro ts hts ret
    by_cases hd : ∀ t ∈ ts, ∀ g, t.rest.head? = some g → ∀ i ∈ g.1, i.texts ≠ none
    · have hk : ∀ t ∈ ts, kids t.render = some ((tkids t).map Template.render) := fun t ht => by rw [kids_template (hts t ht).1, if_pos (hd t ht)]
      have e1 : ((ts.map Template.render).flatMap fun s => (kids s).getD []) = (ts.flatMap tkids).map Template.render := by
        rw [List.flatMap_map, List.map_flatMap, List.flatMap_def, List.flatMap_def]
        congr 1
        apply List.map_congr_left
        intro t ht
        rw [hk t ht]; rfl
      have e2 : ((ts.map Template.render).filter fun s => (findGroup s).isNone) = (ts.filter fun t => t.rest.length = 0).map Template.lit := by
        rw [List.filter_map]
        have : (ts.filter ((fun s => (findGroup s).isNone) ∘ Template.render)) = ts.filter fun t => t.rest.length = 0 := by
          apply List.filter_congr
          intro t ht
          have := findGroup_template (hts t ht).1
          simp only [Function.comp]
          rw [Bool.eq_iff_iff]
          simp [this]
        rw [this]
        apply List.map_congr_left
        intro t ht
        simp only [List.mem_filter, decide_eq_true_eq, List.length_eq_zero_iff] at ht
        simp [Template.render, ht.2, renderRest]
      have hts' : ∀ t ∈ ts.flatMap tkids, t.Wf ∧ t.rest.length ≤ n := by
        intro u hu
        simp only [List.mem_flatMap] at hu
        obtain ⟨t, ht, hu⟩ := hu
        refine ⟨tkids_wf (hts t ht).1 u hu, ?_⟩
        have hl := (hts t ht).2
        unfold tkids at hu
        cases hr : t.rest with
        | nil => rw [hr] at hu; simp at hu
        | cons g gs =>
          rw [hr] at hu hl
          simp only [List.mem_map] at hu
          obtain ⟨v, _, rfl⟩ := hu
          simp only [List.length_cons] at hl
          simp only
          omega
      have key := fun x h => Ev_gen (ts.map Template.render) (fun s hs => by
        simp only [List.mem_map] at hs
        obtain ⟨t, ht, rfl⟩ := hs
        rw [hk t ht]; simp) [] ret x h
      simp only [List.append_nil, List.nil_append, e1, e2] at key
      have hih := ih _ hts' (ret ++ (ts.filter fun t => t.rest.length = 0).map Template.lit)
      constructor
      · intro hgood
        apply key
        rw [byBrackets_succ, ← List.append_assoc]
        apply hih.1
        intro u hu
        simp only [List.mem_flatMap] at hu
        obtain ⟨t, ht, hu⟩ := hu
        unfold tkids at hu
        cases hr : t.rest with
        | nil => rw [hr] at hu; simp at hu
        | cons g gs =>
          rw [hr] at hu
          simp only [List.mem_map] at hu
          obtain ⟨v, _, rfl⟩ := hu
          intro k hk
          exact hgood t ht k (by rw [hr]; simp only [List.mem_cons]; exact .inr hk)
      · rintro ⟨t, ht, hb⟩
        apply key
        apply hih.2
        cases hr : t.rest with
        | nil => exact absurd (fun g hg => by rw [hr] at hg; simp at hg) hb
        | cons g gs =>
          have hg1 := hd t ht g (by rw [hr]; rfl)
          have hne := groupTexts_nonempty ((hts t ht).1.2 g (by rw [hr]; simp)).1 hg1
          obtain ⟨v, vs, hv⟩ := List.exists_cons_of_ne_nil hne
          refine ⟨⟨t.lit ++ v ++ g.2, gs⟩, ?_, ?_⟩
          · simp only [List.mem_flatMap]
            refine ⟨t, ht, ?_⟩
            unfold tkids
            rw [hr]
            simp only [List.mem_map]
            exact ⟨v, by rw [hv]; simp, rfl⟩
          · intro hgs
            apply hb
            intro k hk
            rw [hr] at hk
            simp only [List.mem_cons] at hk
            rcases hk with rfl | hk
            · exact hg1
            · exact hgs k hk
    · have hdie : ∃ s ∈ ts.map Template.render, kids s = none := by
        by_cases hx : ∃ t ∈ ts, ¬ ∀ g, t.rest.head? = some g → ∀ i ∈ g.1, i.texts ≠ none
        · obtain ⟨t, ht, hx⟩ := hx
          exact ⟨t.render, List.mem_map_of_mem ht, by rw [kids_template (hts t ht).1, if_neg hx]⟩
        · exfalso
          apply hd
          intro t ht
          by_cases hy : ∀ g, t.rest.head? = some g → ∀ i ∈ g.1, i.texts ≠ none
          · exact hy
          · exact absurd ⟨t, ht, hy⟩ hx
      constructor
      · intro hgood
        exfalso
        apply hd
        intro t ht g hg i hi
        apply hgood t ht g _ i hi
        cases hr : t.rest with
        | nil => rw [hr] at hg; simp at hg
        | cons k ks =>
          rw [hr] at hg
          simp only [List.head?_cons, Option.some.injEq] at hg
          subst hg
          simp
      · intro _
        simpa using Ev_gen_die _ hdie [] ret

/-! ## The theorems -/

/-- **C119.** One text with any number of brackets: the result is all combinations, the later brackets changing faster, each number written as documented; if some range is empty or its step does not fit, perl dies. -/
theorem expand_one (t : Template) (h : t.Wf) : (t.Good → Yields [t.render] (.ok t.product)) ∧ (¬ t.Good → Yields [t.render] .abort) := by
  have := Ev_templates t.rest.length [t] (by simp [h]) []
  constructor
  · intro hg
    have h1 := this.1 (by simpa using hg)
    have e : byBrackets t.rest.length [t] = t.product := by
      unfold byBrackets
      rw [List.range_succ, List.flatMap_append]
      have : (List.range t.rest.length).flatMap (fun k => ([t].filter fun t => t.rest.length = k).flatMap Template.product) = [] := by
        rw [List.flatMap_eq_nil_iff]
        intro k hk
        simp only [List.mem_range] at hk
        rw [List.filter_eq_nil_iff.2 (by intro u hu; simp only [List.mem_singleton] at hu; subst hu; simp; omega)]
        rfl
      rw [this]
      simp
    simpa [e, Yields, Ev, expandString] using h1
  · intro hb
    have h2 := this.2 (by simpa using hb)
    simpa [Yields, Ev, expandString] using h2

/-- **C119.** Several texts: the combinations of those with fewer brackets come first, otherwise they come in the order of the texts. -/
theorem expand_many (n : Nat) (ts : List Template) (h : ∀ t ∈ ts, t.Wf) (hn : ∀ t ∈ ts, t.rest.length ≤ n) :
    ((∀ t ∈ ts, t.Good) → Yields (ts.map Template.render) (.ok ((List.range (n + 1)).flatMap fun k => (ts.filter fun t => t.rest.length = k).flatMap Template.product))) ∧
    ((∃ t ∈ ts, ¬ t.Good) → Yields (ts.map Template.render) .abort) := by
  have := Ev_templates n ts (fun t ht => ⟨h t ht, hn t ht⟩) []
  simpa [Yields, Ev, expandString, byBrackets] using this

/-- **C119.** Whatever the arguments, also malformed and nested ones, the function ends, with an error or with texts in which no bracket is left to expand. -/
theorem expand_ends (args : List Str) : Yields args .abort ∨ ∃ out, Yields args (.ok out) ∧ ∀ s ∈ out, findGroup s = none := by
  have hb : ∃ n, ∀ s ∈ args, opens s ≤ n := by
    induction args with
    | nil => exact ⟨0, by simp⟩
    | cons s args ih =>
      obtain ⟨n, hn⟩ := ih
      refine ⟨n + opens s, ?_⟩
      intro t ht
      simp only [List.mem_cons] at ht
      rcases ht with rfl | ht
      · omega
      · have := hn t ht; omega
  obtain ⟨n, hn⟩ := hb
  rcases Ev_total n args [] hn with h | ⟨out, h, ho⟩
  · exact .inl h
  · exact .inr ⟨out, h, fun s hs => ho s hs (by simp)⟩

/-- The example of the documentation. -/
example : (⟨"f".toList, [([.num ['0'], .num ['1']], "g".toList), ([.range "03".toList "05".toList none], [])]⟩ : Template).render = "f[0,1]g[03-05]".toList ∧
    (expandString 20 ["f[0,1]g[03-05]".toList]).map (·.map String.ofList) = .ok ["f0g03", "f0g04", "f0g05", "f1g03", "f1g04", "f1g05"] := by
  constructor <;> decide +kernel

/-- Its hypotheses. -/
example : (⟨"f".toList, [([.num ['0'], .num ['1']], "g".toList), ([.range "03".toList "05".toList none], [])]⟩ : Template).Wf := by
  refine ⟨by decide, ?_⟩
  intro g hg
  simp only [List.mem_cons, List.not_mem_nil, or_false] at hg
  rcases hg with rfl | rfl
  · refine ⟨by simp, ?_, by decide⟩
    intro i hi
    simp only [List.mem_cons, List.not_mem_nil, or_false] at hi
    rcases hi with rfl | rfl <;> exact ⟨by simp, by decide⟩
  · refine ⟨by simp, ?_, by decide⟩
    intro i hi
    simp only [List.mem_cons, List.not_mem_nil, or_false] at hi
    subst hi
    exact ⟨⟨by decide, by decide⟩, ⟨by decide, by decide⟩, by simp⟩

/-- Brackets within brackets are expanded from the inside; empty brackets make the text vanish; texts with fewer brackets overtake the others. -/
example : expandString 30 ["[[1,2]-4]".toList] = .ok ["1".toList, "2".toList, "3".toList, "4".toList, "2".toList, "3".toList, "4".toList] ∧ expandString 9 ["a[]".toList] = .ok [] ∧
    expandString 9 ["a[,]".toList] = .ok [] ∧ expandString 9 ["a[0-1]".toList, "b".toList] = .ok ["b".toList, "a0".toList, "a1".toList] ∧ expandString 9 ["a[0-4%0]".toList] = .abort := by
  decide +kernel

end Verif.Expand
