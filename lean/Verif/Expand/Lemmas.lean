import Verif.Expand.Spec

/-! # Expanding texts: lemmas -/

namespace Verif.Expand
open Verif

/-! ## Finding brackets -/

theorem groupHere_not {c : Char} {s : Str} (h : c ≠ '[') : groupHere (c :: s) = none := by
  unfold groupHere
  split
  · next heq => cases heq; exact absurd rfl h
  · rfl

theorem findGroup_lit {s : Str} (h : '[' ∉ s) : findGroup s = none := by
  induction s with
  | nil => rfl
  | cons c s ih =>
    simp only [List.mem_cons, not_or] at h
    rw [findGroup, groupHere_not (fun e => h.1 e.symm)]
    simp [ih h.2]

theorem takeWhile_stop {α : Type} (p : α → Bool) (a : List α) (b : α) (s : List α) (ha : ∀ c ∈ a, p c = true) (hb : p b = false) :
    (a ++ b :: s).takeWhile p = a ∧ (a ++ b :: s).dropWhile p = b :: s := by
  induction a with
  | nil => simp [hb]
  | cons c a ih =>
    have hc := ha c (by simp)
    have := ih fun d hd => ha d (by simp [hd])
    simp [hc, this]

theorem takeWhile_all {α : Type} (p : α → Bool) (a : List α) (ha : ∀ c ∈ a, p c = true) : a.takeWhile p = a ∧ a.dropWhile p = [] := by
  induction a with
  | nil => simp
  | cons c a ih =>
    have hc := ha c (by simp)
    have := ih fun d hd => ha d (by simp [hd])
    simp [hc, this]

theorem findGroup_group {lit nums suf : Str} (h : '[' ∉ lit) (hn : ∀ c ∈ nums, inGroup c = true) :
    findGroup (lit ++ '[' :: nums ++ ']' :: suf) = some (lit, nums, suf) := by
  induction lit with
  | nil =>
    have := takeWhile_stop inGroup nums ']' suf hn (by decide)
    simp [findGroup, groupHere, this.1, this.2]
  | cons c s ih =>
    simp only [List.mem_cons, not_or] at h
    simp only [List.cons_append]
    rw [findGroup, groupHere_not (fun e => h.1 e.symm)]
    have := ih h.2
    simp only [List.append_assoc, List.cons_append] at this ⊢
    simp [this]

/-- Whatever is found was there. -/
theorem findGroup_eq {s pre nums suf : Str} (h : findGroup s = some (pre, nums, suf)) : s = pre ++ '[' :: nums ++ ']' :: suf ∧ ∀ c ∈ nums, inGroup c = true := by
  induction s generalizing pre with
  | nil => simp [findGroup] at h
  | cons c s ih =>
    rw [findGroup] at h
    split at h
    · next n f hg =>
      simp only [Option.some.injEq, Prod.mk.injEq] at h
      obtain ⟨rfl, rfl, rfl⟩ := h
      unfold groupHere at hg
      split at hg
      · next t heq =>
        split at hg
        · next rest hd =>
          simp only [Option.some.injEq, Prod.mk.injEq] at hg
          obtain ⟨rfl, rfl⟩ := hg
          cases heq
          refine ⟨?_, fun c hc => List.all_eq_true.1 List.all_takeWhile c hc⟩
          have := List.takeWhile_append_dropWhile (p := inGroup) (l := s)
          rw [hd] at this
          simp only [List.nil_append, List.cons_append]
          rw [this]
        · cases hg
      · cases hg
    · next hg =>
      cases hf : findGroup s with
      | none => rw [hf] at h; simp at h
      | some x =>
        obtain ⟨p, n, f⟩ := x
        rw [hf] at h
        simp only [Option.map_some, Option.some.injEq, Prod.mk.injEq] at h
        obtain ⟨rfl, rfl, rfl⟩ := h
        obtain ⟨h1, h2⟩ := ih hf
        exact ⟨by rw [h1]; simp, h2⟩

/-! ## Fields -/

theorem fields_nocomma {a : Str} (h : ',' ∉ a) : fields a = [a] := by
  induction a with
  | nil => rfl
  | cons c a ih =>
    simp only [List.mem_cons, not_or] at h
    rw [fields, if_neg (fun e => h.1 e.symm), ih h.2]

theorem fields_comma {a s : Str} (h : ',' ∉ a) : fields (a ++ ',' :: s) = a :: fields s := by
  induction a with
  | nil => simp [fields]
  | cons c a ih =>
    simp only [List.mem_cons, not_or] at h
    rw [List.cons_append, fields, if_neg (fun e => h.1 e.symm), ih h.2]

theorem digit_facts {c : Char} (h : isDigit c = true) : c ≠ ',' ∧ c ≠ '-' ∧ c ≠ '%' ∧ c ≠ '[' ∧ inGroup c = true := by
  refine ⟨?_, ?_, ?_, ?_, by simp [inGroup, h]⟩ <;> (rintro rfl; revert h; decide)

theorem Item.render_facts {i : Item} (h : i.Wf) : i.render ≠ [] ∧ ',' ∉ i.render ∧ (∀ c ∈ i.render, inGroup c = true) := by
  cases i with
  | num ds =>
    exact ⟨h.1, fun hc => (digit_facts (h.2 _ hc)).1 rfl, fun c hc => (digit_facts (h.2 c hc)).2.2.2.2⟩
  | range a b s =>
    obtain ⟨ha, hb, hs⟩ := h
    have key : ∀ c, c ∈ (Item.range a b s).render → c = '-' ∨ c = '%' ∨ isDigit c = true := by
      intro c hc
      cases s with
      | none =>
        simp only [Item.render, List.mem_append, List.mem_cons] at hc
        rcases hc with hc | hc | hc
        · exact .inr (.inr (ha.2 c hc))
        · exact .inl hc
        · exact .inr (.inr (hb.2 c hc))
      | some t =>
        simp only [Item.render, List.mem_append, List.mem_cons] at hc
        rcases hc with (hc | hc | hc) | hc | hc
        · exact .inr (.inr (ha.2 c hc))
        · exact .inl hc
        · exact .inr (.inr (hb.2 c hc))
        · exact .inr (.inl hc)
        · exact .inr (.inr ((hs t rfl).2 c hc))
    refine ⟨?_, ?_, ?_⟩
    · cases s <;> simp [Item.render]
    · intro hc
      rcases key _ hc with h | h | h
      · cases h
      · cases h
      · exact (digit_facts h).1 rfl
    · intro c hc
      rcases key _ hc with h | h | h
      · subst h; decide
      · subst h; decide
      · exact (digit_facts h).2.2.2.2

theorem fields_items : ∀ {is : List Item}, is ≠ [] → (∀ i ∈ is, i.Wf) → fields (renderItems is) = is.map Item.render := by
  intro is
  induction is with
  | nil => intro h; exact absurd rfl h
  | cons i is ih =>
    intro _ hw
    have hi := Item.render_facts (hw i (by simp))
    cases is with
    | nil => simp [renderItems, fields_nocomma hi.2.1]
    | cons j js =>
      rw [renderItems, fields_comma hi.2.1, ih (by simp) fun x hx => hw x (by simp only [List.mem_cons] at hx ⊢; exact .inr hx)]
      · rfl
      · simp

theorem dropWhile_none (l : List Str) (h : ∀ x ∈ l, x ≠ []) : l.dropWhile (· = []) = l := by
  cases l with
  | nil => rfl
  | cons a l => simp [h a (by simp)]

theorem splitComma_items {is : List Item} (h : is ≠ []) (hw : ∀ i ∈ is, i.Wf) : splitComma (renderItems is) = is.map Item.render := by
  unfold splitComma
  rw [fields_items h hw, dropWhile_none, List.reverse_reverse]
  intro x hx
  simp only [List.mem_reverse, List.mem_map] at hx
  obtain ⟨i, hi, rfl⟩ := hx
  exact (Item.render_facts (hw i hi)).1

theorem renderItems_inGroup : ∀ {is : List Item}, (∀ i ∈ is, i.Wf) → ∀ c ∈ renderItems is, inGroup c = true := by
  intro is
  induction is with
  | nil => intro _ c hc; simp [renderItems] at hc
  | cons i is ih =>
    intro hw c hc
    have hi := Item.render_facts (hw i (by simp))
    cases is with
    | nil => exact hi.2.2 c (by simpa [renderItems] using hc)
    | cons j js =>
      rw [renderItems] at hc
      · simp only [List.mem_append, List.mem_cons] at hc
        rcases hc with hc | hc | hc
        · exact hi.2.2 c hc
        · subst hc; decide
        · exact ih (fun x hx => hw x (by simp only [List.mem_cons] at hx ⊢; exact .inr hx)) c hc
      · simp

/-! ## Entries -/

theorem rangeLoop_eq (s : Nat) (hs : 0 < s) : ∀ (k i : Nat), rangeLoop i (i + s * k) s = progression i s k := by
  intro k
  induction k with
  | zero =>
    intro i
    rw [rangeLoop, dif_pos ⟨by omega, hs⟩, rangeLoop, dif_neg (by omega)]
    simp [progression]
  | succ k ih =>
    intro i
    rw [rangeLoop, dif_pos ⟨by omega, hs⟩]
    have : i + s * (k + 1) = (i + s) + s * k := by rw [Nat.mul_succ]; omega
    rw [this, ih (i + s)]
    unfold progression
    rw [List.range_succ_eq_map (n := k + 1), List.map_cons, List.map_map]
    simp only [Nat.mul_zero, Nat.add_zero, List.cons.injEq, true_and]
    apply List.map_congr_left
    intro j _
    simp only [Function.comp, Nat.succ_eq_add_one, Nat.mul_add]
    omega

def Res.ofOption {α : Type} : Option α → Res α
  | some x => .ok x
  | none => .abort

theorem rangeTexts_eq (a b : Str) (s : Option Str) : rangeTexts a b s = Res.ofOption (Item.range a b s).texts := by
  unfold rangeTexts Item.texts
  simp only []
  generalize (s.map value).getD 1 = st
  by_cases h1 : value b < value a
  · rw [if_pos h1, if_neg (by omega)]; rfl
  · rw [if_neg h1]
    by_cases h2 : st = 0
    · rw [if_pos h2, if_neg (by omega)]; rfl
    · rw [if_neg h2]
      by_cases h3 : (value b - value a) % st ≠ 0
      · rw [if_pos h3, if_neg (fun h => h3 (Nat.mod_eq_zero_of_dvd h.2.2))]; rfl
      · rw [if_neg h3]
        have hd : st ∣ value b - value a := Nat.dvd_of_mod_eq_zero (by omega)
        rw [if_pos ⟨by omega, by omega, hd⟩]
        have e : value b = value a + st * ((value b - value a) / st) := by
          rw [Nat.mul_div_cancel' hd]; omega
        conv => lhs; rw [e]
        rw [rangeLoop_eq st (by omega)]
        rfl

theorem bitTexts_item {i : Item} (h : i.Wf) : bitTexts i.render = Res.ofOption i.texts := by
  cases i with
  | num ds =>
    unfold bitTexts
    rw [if_pos ⟨h.1, List.all_eq_true.2 h.2⟩]
    rfl
  | range a b s =>
    obtain ⟨ha, hb, hs⟩ := h
    rw [← rangeTexts_eq]
    unfold bitTexts
    have hminus : '-' ∈ (Item.range a b s).render := by cases s <;> simp [Item.render]
    rw [if_neg]
    · suffices parseRange (Item.range a b s).render = some (a, b, s) by rw [this]
      have h1 : ∀ r, (a ++ '-' :: r).takeWhile isDigit = a ∧ (a ++ '-' :: r).dropWhile isDigit = '-' :: r := fun r => takeWhile_stop isDigit a '-' r ha.2 (by decide)
      cases s with
      | none =>
        show parseRange (a ++ '-' :: b) = _
        simp only [parseRange, (h1 b).1, (h1 b).2, (takeWhile_all isDigit b hb.2).1, (takeWhile_all isDigit b hb.2).2]
        rw [if_neg (by simp [ha.1, hb.1])]
      | some t =>
        have ht := hs t rfl
        have e : (Item.range a b (some t)).render = a ++ '-' :: (b ++ '%' :: t) := by simp [Item.render]
        rw [e]
        have h2 := takeWhile_stop isDigit b '%' t hb.2 (by decide)
        simp only [parseRange, (h1 (b ++ '%' :: t)).1, (h1 (b ++ '%' :: t)).2, h2.1, h2.2]
        rw [if_neg]
        simp only [ha.1, hb.1, ht.1, false_or]
        simp only [List.any_eq_true, not_exists, not_and]
        intro c hc
        simp [ht.2 c hc]
    · rintro ⟨_, hall⟩
      have := List.all_eq_true.1 hall '-' hminus
      revert this; decide

theorem bitsTexts_items {is : List Item} (hw : ∀ i ∈ is, i.Wf) :
    bitsTexts (is.map Item.render) = if (∀ i ∈ is, i.texts ≠ none) then .ok (groupTexts is) else .abort := by
  induction is with
  | nil => simp [bitsTexts, groupTexts]
  | cons i is ih =>
    rw [List.map_cons, bitsTexts, bitTexts_item (hw i (by simp)), ih fun j hj => hw j (by simp [hj])]
    cases hi : i.texts with
    | none => simp [Res.ofOption, hi]
    | some l =>
      by_cases hr : ∀ j ∈ is, j.texts ≠ none
      · rw [if_pos hr, if_pos]
        · simp [Res.ofOption, groupTexts, hi]
        · intro j hj
          simp only [List.mem_cons] at hj
          rcases hj with rfl | hj
          · simp [hi]
          · exact hr j hj
      · rw [if_neg hr, if_neg]
        · simp [Res.ofOption]
        · intro h; exact hr fun j hj => h j (by simp [hj])

/-! ## Rounds -/

/-- What the loop ends with. -/
def Ev (p ret : List Str) (x : Res (List Str)) : Prop := ∃ n, ∀ fuel, n ≤ fuel → loop fuel p ret = x

/-- What one text is replaced by: `none` when perl dies. -/
def kids (s : Str) : Option (List Str) :=
  match findGroup s with
  | none => some []
  | some (pre, nums, suf) =>
    match bitsTexts (splitComma nums) with
    | .ok texts => some (texts.map fun t => pre ++ t ++ suf)
    | _ => none

theorem bitTexts_no_ub (b : Str) : bitTexts b ≠ .ub := by
  unfold bitTexts rangeTexts
  simp only []
  repeat' split
  all_goals simp

theorem bitsTexts_no_ub (bs : List Str) : bitsTexts bs ≠ .ub := by
  induction bs with
  | nil => simp [bitsTexts]
  | cons b bs ih =>
    rw [bitsTexts]
    have := bitTexts_no_ub b
    cases h : bitTexts b with
    | ub => exact absurd h this
    | abort => simp
    | ok x =>
      cases h' : bitsTexts bs with
      | ub => exact absurd h' ih
      | abort => simp
      | ok y => simp

theorem Ev_nil (ret : List Str) : Ev [] ret (.ok ret) := ⟨1, fun fuel h => by obtain ⟨k, rfl⟩ : ∃ k, fuel = k + 1 := ⟨fuel - 1, by omega⟩; rfl⟩

theorem Ev_lit {s : Str} {p ret : List Str} {x : Res (List Str)} (h : findGroup s = none) (he : Ev p (ret ++ [s]) x) : Ev (s :: p) ret x := by
  obtain ⟨n, hn⟩ := he
  refine ⟨n + 1, fun fuel hf => ?_⟩
  obtain ⟨k, rfl⟩ : ∃ k, fuel = k + 1 := ⟨fuel - 1, by omega⟩
  rw [loop, h]
  exact hn k (by omega)

theorem Ev_group {s : Str} {p ret ks : List Str} {x : Res (List Str)} (h : findGroup s ≠ none) (hk : kids s = some ks) (he : Ev (p ++ ks) ret x) : Ev (s :: p) ret x := by
  obtain ⟨n, hn⟩ := he
  refine ⟨n + 1, fun fuel hf => ?_⟩
  obtain ⟨k, rfl⟩ : ∃ k, fuel = k + 1 := ⟨fuel - 1, by omega⟩
  rw [loop]
  unfold kids at hk
  cases hg : findGroup s with
  | none => exact absurd hg h
  | some y =>
    obtain ⟨pre, nums, suf⟩ := y
    rw [hg] at hk
    simp only [] at hk ⊢
    cases hb : bitsTexts (splitComma nums) with
    | ok texts =>
      rw [hb] at hk
      simp only [Option.some.injEq] at hk
      rw [Res.bind_ok, hk]
      exact hn k (by omega)
    | abort => rw [hb] at hk; simp at hk
    | ub => rw [hb] at hk; simp at hk

theorem Ev_die {s : Str} {p ret : List Str} (hk : kids s = none) : Ev (s :: p) ret .abort := by
  refine ⟨1, fun fuel hf => ?_⟩
  obtain ⟨k, rfl⟩ : ∃ k, fuel = k + 1 := ⟨fuel - 1, by omega⟩
  rw [loop]
  unfold kids at hk
  cases hg : findGroup s with
  | none => rw [hg] at hk; simp at hk
  | some y =>
    obtain ⟨pre, nums, suf⟩ := y
    rw [hg] at hk
    simp only [] at hk ⊢
    cases hb : bitsTexts (splitComma nums) with
    | ok texts => rw [hb] at hk; simp at hk
    | abort => rfl
    | ub => exact absurd hb (bitsTexts_no_ub _)

/-- One generation. -/
theorem Ev_gen : ∀ (a : List Str), (∀ s ∈ a, kids s ≠ none) → ∀ (b ret : List Str) (x : Res (List Str)),
    Ev (b ++ a.flatMap fun s => (kids s).getD []) (ret ++ a.filter fun s => (findGroup s).isNone) x → Ev (a ++ b) ret x := by
  intro a
  induction a with
  | nil => intro _ b ret x h; simpa using h
  | cons s a ih =>
    intro hk b ret x h
    have hs := hk s (by simp)
    have ha : ∀ s ∈ a, kids s ≠ none := fun t ht => hk t (by simp [ht])
    cases hks : kids s with
    | none => exact absurd hks hs
    | some ks =>
      cases hg : findGroup s with
      | none =>
        have : ks = [] := by
          unfold kids at hks
          rw [hg] at hks
          simpa using hks.symm
        subst this
        apply Ev_lit hg
        apply ih ha
        simpa [hks, hg] using h
      | some y =>
        apply Ev_group (by rw [hg]; simp) hks
        rw [show a.append b ++ ks = a ++ (b ++ ks) from List.append_assoc a b ks]
        apply ih ha
        simpa [hks, hg] using h

theorem Ev_gen_die : ∀ (a : List Str), (∃ s ∈ a, kids s = none) → ∀ (b ret : List Str), Ev (a ++ b) ret .abort := by
  intro a
  induction a with
  | nil => rintro ⟨s, hs, _⟩; simp at hs
  | cons s a ih =>
    rintro ⟨t, ht, hk⟩ b ret
    cases hks : kids s with
    | none => exact Ev_die hks
    | some ks =>
      have ha : ∃ s ∈ a, kids s = none := by
        simp only [List.mem_cons] at ht
        rcases ht with rfl | ht
        · rw [hks] at hk; cases hk
        · exact ⟨t, ht, hk⟩
      cases hg : findGroup s with
      | none => exact Ev_lit hg (ih ha b _)
      | some y =>
        apply Ev_group (by rw [hg]; simp) hks
        rw [show a.append b ++ ks = a ++ (b ++ ks) from List.append_assoc a b ks]
        exact ih ha _ _

/-! ## Ending -/

/-- The number of opening brackets. -/
def opens (s : Str) : Nat := s.count '['

theorem rangeTexts_digits {a b : Str} {s : Option Str} {l : List Str} (h : rangeTexts a b s = .ok l) : ∀ t ∈ l, '[' ∉ t := by
  unfold rangeTexts at h
  simp only [] at h
  have hd : ∀ n : Nat, '[' ∉ (Nat.repr n).toList := by
    intro n hc
    have := Nat.isDigit_of_mem_toDigits (by decide) (by decide) (n := n) (c := '[') (b := 10) (by
      simpa [Nat.repr] using hc)
    revert this; decide
  repeat' split at h
  all_goals first | cases h | skip
  all_goals
    intro t ht hc
    simp only [List.mem_map] at ht
    obtain ⟨n, _, rfl⟩ := ht
    first
    | exact hd n hc
    | simp only [padded, decimal, List.mem_append, List.mem_replicate] at hc
      rcases hc with ⟨_, hc⟩ | hc
      · revert hc; decide
      · exact hd n hc

theorem bitTexts_digits {b : Str} {l : List Str} (h : bitTexts b = .ok l) : ∀ t ∈ l, '[' ∉ t := by
  unfold bitTexts at h
  split at h
  · next hb =>
    cases h
    intro t ht hc
    simp only [List.mem_singleton] at ht
    subst ht
    have := List.all_eq_true.1 hb.2 _ hc
    revert this; decide
  · split at h
    · exact rangeTexts_digits h
    · cases h

theorem bitsTexts_digits {bs : List Str} {l : List Str} (h : bitsTexts bs = .ok l) : ∀ t ∈ l, '[' ∉ t := by
  induction bs generalizing l with
  | nil => simp only [bitsTexts, Res.ok.injEq] at h; subst h; simp
  | cons b bs ih =>
    rw [bitsTexts] at h
    cases hb : bitTexts b with
    | ub => rw [hb] at h; simp at h
    | abort => rw [hb] at h; simp at h
    | ok x =>
      cases hbs : bitsTexts bs with
      | ub => rw [hb, hbs] at h; simp at h
      | abort => rw [hb, hbs] at h; simp at h
      | ok y =>
        rw [hb, hbs] at h
        simp only [Res.bind_ok, Res.pure_eq, Res.ok.injEq] at h
        subst h
        intro t ht
        simp only [List.mem_append] at ht
        rcases ht with ht | ht
        · exact bitTexts_digits hb t ht
        · exact ih hbs t ht

theorem kids_opens {s : Str} {ks : List Str} (h : kids s = some ks) : ∀ t ∈ ks, opens t < opens s := by
  unfold kids at h
  cases hg : findGroup s with
  | none => rw [hg] at h; simp only [Option.some.injEq] at h; subst h; simp
  | some y =>
    obtain ⟨pre, nums, suf⟩ := y
    rw [hg] at h
    simp only [] at h
    cases hb : bitsTexts (splitComma nums) with
    | ub => rw [hb] at h; simp at h
    | abort => rw [hb] at h; simp at h
    | ok texts =>
      rw [hb] at h
      simp only [Option.some.injEq] at h
      subst h
      intro t ht
      simp only [List.mem_map] at ht
      obtain ⟨v, hv, rfl⟩ := ht
      have hv0 : v.count '[' = 0 := List.count_eq_zero.2 (bitsTexts_digits hb v hv)
      obtain ⟨hs, _⟩ := findGroup_eq hg
      simp only [opens]
      rw [hs]
      simp only [List.count_append, List.count_cons, hv0]
      simp

theorem findGroup_opens {s : Str} (h : opens s = 0) : findGroup s = none := findGroup_lit (List.count_eq_zero.1 h)

theorem Ev_total : ∀ (n : Nat) (a ret : List Str), (∀ s ∈ a, opens s ≤ n) → Ev a ret .abort ∨ ∃ out, Ev a ret (.ok out) ∧ (∀ s ∈ out, s ∉ ret → findGroup s = none) := by
  intro n
  induction n with
  | zero =>
    intro a ret ha
    right
    have hk : ∀ s ∈ a, kids s = some [] := by
      intro s hs
      unfold kids
      rw [findGroup_opens (by have := ha s hs; omega)]
    refine ⟨ret ++ a.filter fun s => (findGroup s).isNone, ?_, ?_⟩
    · have := Ev_gen a (fun s hs => by rw [hk s hs]; simp) [] ret (.ok (ret ++ a.filter fun s => (findGroup s).isNone)) (by
        have e : (a.flatMap fun s => (kids s).getD []) = [] := by
          rw [List.flatMap_eq_nil_iff]
          intro s hs
          rw [hk s hs]; rfl
        rw [e]
        exact Ev_nil _)
      simpa using this
    · intro s hs hr
      simp only [List.mem_append, List.mem_filter, Option.isNone_iff_eq_none] at hs
      rcases hs with hs | hs
      · exact absurd hs hr
      · exact hs.2
  | succ n ih =>
    intro a ret ha
    by_cases hd : ∃ s ∈ a, kids s = none
    · left
      simpa using Ev_gen_die a hd [] ret
    · have hd' : ∀ s ∈ a, kids s ≠ none := fun s hs h => hd ⟨s, hs, h⟩
      have hnext : ∀ t ∈ (a.flatMap fun s => (kids s).getD []), opens t ≤ n := by
        intro t ht
        simp only [List.mem_flatMap] at ht
        obtain ⟨s, hs, ht⟩ := ht
        cases hks : kids s with
        | none => exact absurd hks (hd' s hs)
        | some ks =>
          rw [hks] at ht
          have := kids_opens hks t (by simpa using ht)
          have := ha s hs
          omega
      rcases ih _ (ret ++ a.filter fun s => (findGroup s).isNone) hnext with h | ⟨out, h, ho⟩
      · left
        have := Ev_gen a hd' [] ret .abort (by simpa using h)
        simpa using this
      · right
        refine ⟨out, ?_, ?_⟩
        · have := Ev_gen a hd' [] ret (.ok out) (by simpa using h)
          simpa using this
        · intro s hs hr
          by_cases hsr : s ∈ ret ++ a.filter fun s => (findGroup s).isNone
          · simp only [List.mem_append, List.mem_filter, Option.isNone_iff_eq_none] at hsr
            rcases hsr with hsr | hsr
            · exact absurd hsr hr
            · exact hsr.2
          · exact ho s hs hsr

end Verif.Expand
