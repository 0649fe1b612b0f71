import Verif.Str.Double

/-! # `stringToDouble`: the scanner takes exactly the numbers -/

namespace Verif.Str.Dbl

theorem takeWhile_all {p : Byte → Bool} {a b : Str} (ha : ∀ x ∈ a, p x = true) (hb : ∀ x, b.head? = some x → p x = false) :
    (a ++ b).takeWhile p = a ∧ (a ++ b).dropWhile p = b := by
  induction a with
  | nil =>
    cases b with
    | nil => exact ⟨rfl, rfl⟩
    | cons x xs =>
      have := hb x rfl
      simp [this]
  | cons y ys ih =>
    have hy := ha y (by simp)
    obtain ⟨h1, h2⟩ := ih (fun x hx => ha x (by simp [hx]))
    simp [hy, h1, h2]

theorem split_while (p : Byte → Bool) (s : Str) : s = s.takeWhile p ++ s.dropWhile p := List.takeWhile_append_dropWhile.symm

theorem mem_takeWhile {p : Byte → Bool} {s : Str} {x : Byte} (h : x ∈ s.takeWhile p) : p x = true :=
  List.all_eq_true.mp List.all_takeWhile x h

/-! ## Signs -/

theorem scanSign_sign (s : Str) : ∃ sg, Sign sg (scanSign s).1 ∧ s = sg ++ (scanSign s).2 := by
  cases s with
  | nil => exact ⟨[], Or.inl ⟨rfl, rfl⟩, rfl⟩
  | cons b s =>
    by_cases h1 : b.val = 45
    · have : b = 45 := Fin.ext h1
      subst this
      exact ⟨[45], Or.inr (Or.inr ⟨rfl, rfl⟩), rfl⟩
    · by_cases h2 : b.val = 43
      · have : b = 43 := Fin.ext h2
        subst this
        exact ⟨[43], Or.inr (Or.inl ⟨rfl, rfl⟩), rfl⟩
      · simp only [scanSign, h1, h2, if_false]
        exact ⟨[], Or.inl ⟨rfl, rfl⟩, rfl⟩

theorem scanSign_of {sg w : Str} {neg : Bool} (h : Sign sg neg) (hw : ∀ b, w.head? = some b → b.val ≠ 45 ∧ b.val ≠ 43) :
    scanSign (sg ++ w) = (neg, w) := by
  rcases h with ⟨rfl, rfl⟩ | ⟨rfl, rfl⟩ | ⟨rfl, rfl⟩
  · cases w with
    | nil => rfl
    | cons b s =>
      obtain ⟨h1, h2⟩ := hw b rfl
      simp [scanSign, h1, h2]
  · rfl
  · rfl

theorem dec_range {b : Byte} (h : (dec b).isSome = true) : 48 ≤ b.val ∧ b.val ≤ 57 := by
  unfold dec at h
  split at h
  · assumption
  · cases h

theorem hex_range {b : Byte} (h : (hex b).isSome = true) :
    (48 ≤ b.val ∧ b.val ≤ 57) ∨ (65 ≤ b.val ∧ b.val ≤ 70) ∨ (97 ≤ b.val ∧ b.val ≤ 102) := by
  unfold hex at h
  split at h
  · left; assumption
  · split at h
    · right; left; assumption
    · split at h
      · right; right; assumption
      · cases h

theorem letter_iff {c : Nat} {b : Byte} : isLetter c b = true ↔ b.val = c ∨ b.val + 32 = c := by simp [isLetter]

/-! ## Exponents -/

theorem scanExp_of {letter : Nat} {t : Str} {e : Int} (h : Expo letter t e) : scanExp letter t = (e, []) := by
  rcases h with ⟨rfl, rfl⟩ | ⟨c, sg, neg, ds, hc, hs, hne, hd, rfl, rfl⟩
  · rfl
  · have hsc : scanSign (sg ++ ds) = (neg, ds) := by
      refine scanSign_of hs ?_
      intro b hb
      have := dec_range (hd b (List.mem_of_mem_head? hb))
      omega
    have ht := takeWhile_all (p := fun x => (dec x).isSome) (a := ds) (b := []) hd (by simp)
    rw [List.append_nil] at ht
    simp only [scanExp, hc, if_true, hsc, ht.1, ht.2, if_neg hne]
    cases neg <;> simp

theorem scanExp_expo {letter : Nat} {t : Str} (h : (scanExp letter t).2 = []) : Expo letter t (scanExp letter t).1 := by
  cases t with
  | nil => exact Or.inl ⟨rfl, rfl⟩
  | cons b s =>
    by_cases hb : isLetter letter b = true
    · simp only [scanExp, hb, if_true] at h ⊢
      by_cases hd : (scanSign s).2.takeWhile (fun x => (dec x).isSome) = []
      · simp only [hd, if_true] at h
        cases h
      · simp only [hd, if_false] at h ⊢
        obtain ⟨sg, h1, h2⟩ := scanSign_sign s
        refine Or.inr ⟨b, sg, (scanSign s).1, _, hb, h1, hd, fun d hd' => mem_takeWhile (p := fun x => (dec x).isSome) hd', ?_, ?_⟩
        · have := split_while (fun x => (dec x).isSome) (scanSign s).2
          rw [h, List.append_nil] at this
          rw [← this, ← h2]
        · cases (scanSign s).1 <;> simp
    · simp only [scanExp, hb] at h
      cases h

/-! ## Digits, point, exponent -/

theorem scanNum_of {dig : Byte → Option Nat} {base ebase letter : Nat} {neg : Bool} {t : Str} {v : Num}
    (hdot : dig 46 = none) (hlet : ∀ b, isLetter letter b = true → dig b = none ∧ b.val ≠ 46)
    (h : Plain dig base ebase letter neg t v) : scanNum dig base ebase letter neg t = some (v, []) := by
  obtain ⟨ip, fp, ex, e, h1, h2, h3, h4, h5, rfl⟩ := h
  have hex : ∀ x, ex.head? = some x → (dig x).isSome = false ∧ x.val ≠ 46 := by
    intro x hx
    rcases h4 with ⟨rfl, _⟩ | ⟨c, sg, ng, ds, hc, _, _, _, rfl, _⟩
    · cases hx
    · simp only [List.head?_cons, Option.some.injEq] at hx
      subst hx
      obtain ⟨g1, g2⟩ := hlet _ hc
      exact ⟨by rw [g1]; rfl, g2⟩
  rcases h5 with ⟨rfl, rfl⟩ | rfl
  · have ht := takeWhile_all (p := fun x => (dig x).isSome) (a := ip) (b := ex) h1 (fun x hx => (hex x hx).1)
    have hf : scanFrac dig ex = ([], ex) := by
      cases ex with
      | nil => rfl
      | cons b s => simp only [scanFrac, (hex b rfl).2, if_false]
    have hne : ¬ (ip = [] ∧ ([] : Str) = []) := by
      rintro ⟨g, _⟩
      rcases h3 with h3 | h3
      · exact h3 g
      · exact h3 rfl
    have hne' : ¬ (ip = [] ∧ True) := fun g => hne ⟨g.1, rfl⟩
    simp only [scanNum, ht.1, ht.2, hf, if_neg hne', scanExp_of h4]
  · have ht := takeWhile_all (p := fun x => (dig x).isSome) (a := ip) (b := 46 :: (fp ++ ex)) h1
      (fun x hx => by simp only [List.head?_cons, Option.some.injEq] at hx; subst hx; rw [hdot]; rfl)
    have ht2 := takeWhile_all (p := fun x => (dig x).isSome) (a := fp) (b := ex) h2 (fun x hx => (hex x hx).1)
    have hf : scanFrac dig (46 :: (fp ++ ex)) = (fp, ex) := by
      have : ((46 : Byte).val = 46) := rfl
      simp only [scanFrac, this, if_true, ht2.1, ht2.2]
    have hne : ¬ (ip = [] ∧ fp = []) := by
      rintro ⟨g, g2⟩
      rcases h3 with h3 | h3
      · exact h3 g
      · exact h3 g2
    simp only [scanNum, ht.1, ht.2, hf, if_neg hne, scanExp_of h4]

theorem scanNum_plain {dig : Byte → Option Nat} {base ebase letter : Nat} {neg : Bool} {t : Str} {v : Num}
    (h : scanNum dig base ebase letter neg t = some (v, [])) : Plain dig base ebase letter neg t v := by
  simp only [scanNum] at h
  split at h
  · cases h
  · rename_i hne
    simp only [Option.some.injEq, Prod.mk.injEq] at h
    obtain ⟨h1, h2⟩ := h
    have hex := scanExp_expo h2
    have hs := split_while (fun x => (dig x).isSome) t
    refine ⟨t.takeWhile fun x => (dig x).isSome, (scanFrac dig (t.dropWhile fun x => (dig x).isSome)).1,
      (scanFrac dig (t.dropWhile fun x => (dig x).isSome)).2, _, fun d hd => mem_takeWhile (p := fun x => (dig x).isSome) hd, ?_, ?_, hex, ?_, h1.symm⟩
    · intro d hd
      cases hr : t.dropWhile fun x => (dig x).isSome with
      | nil => rw [hr] at hd; cases hd
      | cons b r =>
        rw [hr] at hd
        simp only [scanFrac] at hd
        split at hd
        · exact mem_takeWhile (p := fun x => (dig x).isSome) hd
        · cases hd
    · by_cases g : (t.takeWhile fun x => (dig x).isSome) = []
      · exact Or.inr fun g2 => hne ⟨g, g2⟩
      · exact Or.inl g
    · cases hr : t.dropWhile fun x => (dig x).isSome with
      | nil =>
        rw [hr] at hs
        exact Or.inl ⟨hs, rfl⟩
      | cons b r =>
        rw [hr] at hs
        simp only [scanFrac]
        by_cases hb : b.val = 46
        · have : b = 46 := Fin.ext hb
          subst this
          right
          simp only [if_pos hb]
          rw [← split_while]
          exact hs
        · left
          simp only [if_neg hb]
          exact ⟨hs, trivial⟩

/-! ## Words -/

theorem scanWord_spells : ∀ {cs : List Nat} {s r : Str}, scanWord cs s = some r → ∃ w, Spells cs w ∧ s = w ++ r := by
  intro cs
  induction cs with
  | nil => intro s r h; cases h; exact ⟨[], rfl, rfl⟩
  | cons c cs ih =>
    intro s r h
    cases s with
    | nil => cases h
    | cons b s =>
      simp only [scanWord] at h
      split at h
      · rename_i hb
        obtain ⟨w, h1, rfl⟩ := ih h
        exact ⟨b :: w, ⟨b, w, rfl, hb, h1⟩, rfl⟩
      · cases h

theorem scanWord_of : ∀ {cs : List Nat} {w : Str} (r : Str), Spells cs w → scanWord cs (w ++ r) = some r := by
  intro cs
  induction cs with
  | nil => intro w r h; cases h; rfl
  | cons c cs ih =>
    rintro w r ⟨b, q, rfl, hb, h⟩
    simp only [List.cons_append, scanWord, hb, if_true]
    exact ih r h

theorem scanWord_head {c : Nat} {cs : List Nat} {s : Str} (h : ∀ b, s.head? = some b → isLetter c b = false) : scanWord (c :: cs) s = none := by
  cases s with
  | nil => rfl
  | cons b s =>
    have := h b rfl
    simp only [scanWord, this]
    rfl

theorem scanWord_long : ∀ {cs : List Nat} {s : Str}, s.length < cs.length → scanWord cs s = none := by
  intro cs
  induction cs with
  | nil => intro s h; simp at h
  | cons c cs ih =>
    intro s h
    cases s with
    | nil => rfl
    | cons b s =>
      simp only [scanWord]
      split
      · exact ih (by simpa using h)
      · rfl

theorem spells_length : ∀ {cs : List Nat} {w : Str}, Spells cs w → w.length = cs.length := by
  intro cs
  induction cs with
  | nil => intro w h; cases h; rfl
  | cons c cs ih => rintro w ⟨b, q, rfl, _, h⟩; simp [ih h]

theorem scanBrackets_of {br : Str} (h : br = [] ∨ ∃ cs, br = 40 :: (cs ++ [41]) ∧ ∀ c ∈ cs, isNanChar c = true) : scanBrackets br = [] := by
  rcases h with rfl | ⟨cs, rfl, hc⟩
  · rfl
  · have ht := takeWhile_all (p := isNanChar) (a := cs) (b := [41]) hc
      (fun x hx => by simp only [List.head?_cons, Option.some.injEq] at hx; subst hx; decide)
    have h40 : ((40 : Byte).val = 40) := rfl
    have h41 : ((41 : Byte).val = 41) := rfl
    simp only [scanBrackets, h40, if_true, ht.2, h41]

theorem scanBrackets_brackets {br : Str} (h : scanBrackets br = []) :
    br = [] ∨ ∃ cs, br = 40 :: (cs ++ [41]) ∧ ∀ c ∈ cs, isNanChar c = true := by
  cases br with
  | nil => exact Or.inl rfl
  | cons b s =>
    right
    simp only [scanBrackets] at h
    split at h
    · rename_i hb
      have : b = 40 := Fin.ext hb
      subst this
      have hs := split_while isNanChar s
      split at h
      · cases h
      · rename_i c r hr
        split at h
        · rename_i hc
          have : c = 41 := Fin.ext hc
          subst this
          subst h
          rw [hr] at hs
          exact ⟨s.takeWhile isNanChar, by rw [← hs], fun c hc => mem_takeWhile hc⟩
        · cases h
    · cases h

/-! ## Numbers -/

theorem plain_dec_chars {neg : Bool} {t : Str} {v : Num} (h : Plain dec 10 10 101 neg t v) :
    (∃ b r, t = b :: r ∧ (b.val = 46 ∨ (48 ≤ b.val ∧ b.val ≤ 57))) ∧ ∀ b ∈ t, isLetter 120 b = false := by
  obtain ⟨ip, fp, ex, e, h1, h2, h3, h4, h5, _⟩ := h
  have hex : ∀ b ∈ ex, isLetter 120 b = false := by
    intro b hb
    rcases h4 with ⟨rfl, _⟩ | ⟨c, sg, ng, ds, hc, hs, _, hd, rfl, _⟩
    · cases hb
    · have hx : ¬ (isLetter 120 b = true) := by
        rw [letter_iff] at hc ⊢
        simp only [List.mem_cons, List.mem_append] at hb
        rcases hb with rfl | hb | hb
        · omega
        · rcases hs with ⟨rfl, _⟩ | ⟨rfl, _⟩ | ⟨rfl, _⟩
          · cases hb
          · simp at hb; subst hb; decide
          · simp at hb; subst hb; decide
        · have := dec_range (hd b hb); omega
      simpa using hx
  have hdig : ∀ b, (dec b).isSome = true → isLetter 120 b = false := by
    intro b hb
    have hr := dec_range hb
    have : ¬ (isLetter 120 b = true) := by rw [letter_iff]; omega
    simpa using this
  constructor
  · rcases h5 with ⟨rfl, rfl⟩ | rfl
    · cases ip with
      | nil => simp at h3
      | cons b r => exact ⟨b, r ++ ex, rfl, Or.inr (dec_range (h1 b (by simp)))⟩
    · cases ip with
      | nil => exact ⟨46, fp ++ ex, rfl, Or.inl rfl⟩
      | cons b r => exact ⟨b, _, rfl, Or.inr (dec_range (h1 b (by simp)))⟩
  · intro b hb
    rcases h5 with ⟨rfl, rfl⟩ | rfl
    · rcases List.mem_append.mp hb with hb | hb
      · exact hdig b (h1 b hb)
      · exact hex b hb
    · simp only [List.mem_append, List.mem_cons] at hb
      rcases hb with hb | rfl | hb | hb
      · exact hdig b (h1 b hb)
      · decide
      · exact hdig b (h2 b hb)
      · exact hex b hb

theorem scanBody_of {neg : Bool} {w : Str} {v : Num} (h : Body neg w v) : scanBody neg w = some (v, []) := by
  have nodig : ∀ (c : Nat) (cs : List Nat) (b : Byte) (r : Str), 58 ≤ c → 58 + 32 ≤ c → b.val ≤ 57 → scanWord (c :: cs) (b :: r) = none := by
    intro c cs b r _ hc hb
    refine scanWord_head ?_
    intro x hx
    simp only [List.head?_cons, Option.some.injEq] at hx
    subst hx
    have : ¬ (isLetter c b = true) := by rw [letter_iff]; omega
    simpa using this
  rcases h with h | ⟨x, r, rfl, hx, h⟩ | ⟨h, rfl⟩ | ⟨w, br, rfl, hw, rfl, hbr⟩
  · obtain ⟨⟨b, r, rfl, hb⟩, hno⟩ := plain_dec_chars h
    have hs := scanNum_of (by decide) (fun b hb => by
      rw [letter_iff] at hb
      refine ⟨?_, by omega⟩
      unfold dec
      rw [if_neg (by omega)]) h
    have hb' : b.val ≤ 57 := by omega
    simp only [scanBody, nodig 105 _ b r (by decide) (by decide) hb', nodig 110 _ b r (by decide) (by decide) hb']
    cases r with
    | nil => exact hs
    | cons x r =>
      have hxl : isLetter 120 x = false := hno x (by simp)
      simp only [hxl, Bool.false_eq_true, and_false, if_false]
      exact hs
  · have hs := scanNum_of (by decide) (fun b hb => by
      rw [letter_iff] at hb
      refine ⟨?_, by omega⟩
      unfold hex
      rw [if_neg (by omega), if_neg (by omega), if_neg (by omega)]) h
    have h48 : ((48 : Byte).val = 48) := rfl
    have hb' : ((48 : Byte).val ≤ 57) := by decide
    simp only [scanBody, nodig 105 _ 48 (x :: r) (by decide) (by decide) hb', nodig 110 _ 48 (x :: r) (by decide) (by decide) hb',
      h48, hx, and_self, if_true, hs]
  · rcases h with h | h
    · have hl := spells_length h
      have h1 := scanWord_of [] h
      rw [List.append_nil] at h1
      simp only [scanBody, scanWord_long (cs := [105, 110, 102, 105, 110, 105, 116, 121]) (s := w) (by rw [hl]; decide), h1]
    · have h1 := scanWord_of [] h
      rw [List.append_nil] at h1
      simp only [scanBody, h1]
  · have h1 := scanWord_of br hw
    obtain ⟨b, q, rfl, hb, _⟩ := hw
    have hno : ∀ cs, scanWord (105 :: cs) (b :: q ++ br) = none := by
      intro cs
      refine scanWord_head ?_
      intro x hx
      simp only [List.cons_append, List.head?_cons, Option.some.injEq] at hx
      subst hx
      have : ¬ (isLetter 105 b = true) := by rw [letter_iff] at hb ⊢; omega
      simpa using this
    simp only [scanBody, hno, h1, scanBrackets_of hbr]

theorem scanBody_body {neg : Bool} {w : Str} {v : Num} (h : scanBody neg w = some (v, [])) : Body neg w v := by
  unfold scanBody at h
  split at h
  · rename_i r hr
    cases h
    obtain ⟨q, h1, rfl⟩ := scanWord_spells hr
    rw [List.append_nil]
    exact Or.inr (Or.inr (Or.inl ⟨Or.inr h1, rfl⟩))
  · split at h
    · rename_i r hr
      cases h
      obtain ⟨q, h1, rfl⟩ := scanWord_spells hr
      rw [List.append_nil]
      exact Or.inr (Or.inr (Or.inl ⟨Or.inl h1, rfl⟩))
    · split at h
      · rename_i r hr
        simp only [Option.some.injEq, Prod.mk.injEq] at h
        obtain ⟨rfl, h2⟩ := h
        obtain ⟨q, h1, rfl⟩ := scanWord_spells hr
        exact Or.inr (Or.inr (Or.inr ⟨q, r, rfl, h1, rfl, scanBrackets_brackets h2⟩))
      · split at h
        · rename_i z x r _ _ _
          split at h
          · rename_i hc
            split at h
            · rename_i q hq
              cases h
              have : z = 48 := Fin.ext hc.1
              subst this
              exact Or.inr (Or.inl ⟨x, r, rfl, hc.2, scanNum_plain hq⟩)
            · exact Or.inl (scanNum_plain h)
          · exact Or.inl (scanNum_plain h)
        · exact Or.inl (scanNum_plain h)

/-- How a number without sign begins. -/
theorem body_head {neg : Bool} {w : Str} {v : Num} (h : Body neg w v) :
    ∃ b r, w = b :: r ∧ isSpace b = false ∧ b.val ≠ 45 ∧ b.val ≠ 43 := by
  have hsp : ∀ b : Byte, 46 ≤ b.val → isSpace b = false ∧ b.val ≠ 45 ∧ b.val ≠ 43 := by
    intro b hb
    refine ⟨?_, by omega, by omega⟩
    simp only [isSpace, Bool.or_eq_false_iff, beq_eq_false_iff_ne, Bool.and_eq_false_iff, decide_eq_false_iff_not]
    omega
  rcases h with h | ⟨x, r, rfl, _, _⟩ | ⟨h, _⟩ | ⟨w, br, rfl, hw, _, _⟩
  · obtain ⟨⟨b, r, rfl, hb⟩, _⟩ := plain_dec_chars h
    exact ⟨b, r, rfl, hsp b (by omega)⟩
  · exact ⟨48, _, rfl, hsp 48 (by decide)⟩
  · rcases h with ⟨b, q, rfl, hb, _⟩ | ⟨b, q, rfl, hb, _⟩
    · rw [letter_iff] at hb; exact ⟨b, q, rfl, hsp b (by omega)⟩
    · rw [letter_iff] at hb; exact ⟨b, q, rfl, hsp b (by omega)⟩
  · obtain ⟨b, q, rfl, hb, _⟩ := hw
    rw [letter_iff] at hb
    exact ⟨b, _, rfl, hsp b (by omega)⟩

/-- `strtod` takes the whole of a string that is not empty exactly when it is a number. -/
theorem strtod_iff {t : Str} (ht : t ≠ []) (v : Num) : strtod t = (v, []) ↔ IsNumber t v := by
  constructor
  · intro h
    simp only [strtod] at h
    obtain ⟨sg, h1, h2⟩ := scanSign_sign (t.dropWhile isSpace)
    split at h
    · rename_i q hq
      subst h
      refine ⟨t.takeWhile isSpace, sg, _, _, fun b hb => mem_takeWhile hb, h1, scanBody_body hq, ?_⟩
      rw [← h2]
      exact split_while _ _
    · simp only [Prod.mk.injEq] at h
      exact absurd h.2 ht
  · rintro ⟨sp, sg, neg, w, h1, h2, h3, rfl⟩
    obtain ⟨b, r, rfl, hb1, hb2, hb3⟩ := body_head h3
    have hsg : scanSign (sg ++ b :: r) = (neg, b :: r) := by
      refine scanSign_of h2 ?_
      intro x hx
      simp only [List.head?_cons, Option.some.injEq] at hx
      subst hx
      exact ⟨hb2, hb3⟩
    have hd := (takeWhile_all (p := isSpace) (a := sp) (b := sg ++ b :: r) h1 (by
      intro x hx
      rcases h2 with ⟨rfl, _⟩ | ⟨rfl, _⟩ | ⟨rfl, _⟩
      · simp only [List.nil_append, List.head?_cons, Option.some.injEq] at hx
        subst hx
        exact hb1
      · cases hx; decide
      · cases hx; decide)).2
    simp only [strtod, hd, hsg, scanBody_of h3]

end Verif.Str.Dbl
