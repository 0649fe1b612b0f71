import Verif.Num.Props

/-! # C96, bases 16 and 8: exactly what is read -/

namespace Verif.Num
open Verif.Str Verif.Num.Spec

theorem toTy_iff (t : Ty) (neg : Bool) (n : Nat) (x : Int) : toTy t neg n = .ok x ↔ Becomes t.signed t.bits neg n x := by
  obtain ⟨sg, bits⟩ := t
  cases sg with
  | true =>
    rw [toTy_signed]
    simp only [Becomes, if_true]
    exact And.comm
  | false =>
    have hpos : 0 < 2 ^ bits := Nat.two_pow_pos bits
    simp only [toTy, Becomes, InRange, Bool.false_eq_true, if_false]
    generalize 2 ^ bits = m at *
    by_cases hn : n < m
    · rw [if_pos hn, Res.ok.injEq]
      cases neg with
      | false =>
        simp only [Bool.false_eq_true, if_false]
        constructor
        · rintro rfl
          exact ⟨⟨by omega, by omega⟩, hn, by simp⟩
        · rintro ⟨⟨h1, h2⟩, _, k, h3⟩
          have hk : k = 0 := by
            rcases Int.lt_trichotomy k 0 with h | h | h
            · have : (m : Int) * k ≤ (m : Int) * (-1) := Int.mul_le_mul_of_nonneg_left (by omega) (by omega)
              omega
            · exact h
            · have : (m : Int) * 1 ≤ (m : Int) * k := Int.mul_le_mul_of_nonneg_left (by omega) (by omega)
              omega
          subst hk
          omega
      | true =>
        simp only [if_true]
        have hm : (m - n) % m = if n = 0 then 0 else m - n := by
          by_cases h0 : n = 0
          · rw [if_pos h0, h0]; simp
          · rw [if_neg h0]; exact Nat.mod_eq_of_lt (by omega)
        rw [hm]
        constructor
        · rintro rfl
          by_cases h0 : n = 0
          · rw [if_pos h0, h0]; exact ⟨⟨by simp, by omega⟩, by omega, by simp⟩
          · rw [if_neg h0]; exact ⟨⟨by omega, by omega⟩, hn, 1, by omega⟩
        · rintro ⟨⟨h1, h2⟩, _, k, h3⟩
          rcases Int.lt_or_le k 0 with h | h
          · have : (m : Int) * k ≤ (m : Int) * (-1) := Int.mul_le_mul_of_nonneg_left (by omega) (by omega)
            omega
          · rcases Int.lt_or_le k 2 with h' | h'
            · have hk : k = 0 ∨ k = 1 := by omega
              rcases hk with rfl | rfl
              · have : n = 0 := by omega
                rw [if_pos this]; omega
              · have : n ≠ 0 := by omega
                rw [if_neg this]; omega
            · have : (m : Int) * 2 ≤ (m : Int) * k := Int.mul_le_mul_of_nonneg_left h' (by omega)
              omega
    · rw [if_neg hn]
      constructor
      · intro h; cases h
      · rintro ⟨_, h, _⟩; exact absurd h hn

theorem isSpace_iff (c : Byte) : isSpace c = true ↔ Blank c := by
  unfold isSpace Blank
  rw [Bool.or_eq_true, Bool.and_eq_true]
  simp only [decide_eq_true_eq]
  have : c = 32 ↔ c.val = 32 := by
    constructor
    · rintro rfl; rfl
    · intro h; exact Fin.ext h
  rw [this]

theorem dropWhile_append_all {p : Byte → Bool} : ∀ {l r : Str}, (∀ c ∈ l, p c = true) → (∀ c t, r = c :: t → p c = false) →
    (l ++ r).dropWhile p = r := by
  intro l
  induction l with
  | nil =>
    intro r _ h
    cases r with
    | nil => rfl
    | cons c t => rw [List.nil_append, List.dropWhile_cons_of_neg (by rw [h c t rfl]; simp)]
  | cons c t ih =>
    intro r h1 h2
    rw [List.cons_append, List.dropWhile_cons_of_pos (h1 c (by simp))]
    exact ih (fun d hd => h1 d (List.mem_cons_of_mem _ hd)) h2

theorem takeWhile_append_all {p : Byte → Bool} : ∀ {l r : Str}, (∀ c ∈ l, p c = true) → (∀ c t, r = c :: t → p c = false) →
    (l ++ r).takeWhile p = l := by
  intro l
  induction l with
  | nil =>
    intro r _ h
    cases r with
    | nil => rfl
    | cons c t => rw [List.nil_append, List.takeWhile_cons_of_neg (by rw [h c t rfl]; simp)]
  | cons c t ih =>
    intro r h1 h2
    rw [List.cons_append, List.takeWhile_cons_of_pos (h1 c (by simp)), ih (fun d hd => h1 d (List.mem_cons_of_mem _ hd)) h2]

theorem digit_none_iff {b : Nat} (hb : b ≤ 16) (c : Byte) : (digit b c).isSome = false ↔ ∀ v, Digit c v → b ≤ v := by
  constructor
  · intro h v hd
    by_cases hv : v < b
    · rw [digit_of hd hv] at h; simp at h
    · omega
  · intro h
    cases hd : digit b c with
    | none => rfl
    | some v =>
      obtain ⟨h1, h2⟩ := digit_some hb hd
      have := h v h1
      omega

/-- What the sign function splits off. -/
theorem sign_split (s : Str) : ∃ sg neg r, s = sg ++ r ∧ Sign sg neg ∧ sign s = (neg, r) := by
  rw [sign.eq_def]
  split
  · exact ⟨[45], true, _, rfl, .minus, rfl⟩
  · exact ⟨[43], false, _, rfl, .plus, rfl⟩
  · exact ⟨[], false, _, rfl, .none, rfl⟩

theorem hexPrefix_split (b : Nat) (s : Str) : ∃ pf r, s = pf ++ r ∧ (pf = [] ∨ (b = 16 ∧ (pf = [48, 120] ∨ pf = [48, 88]))) ∧
    hexPrefix b s = r ∧ (b = 16 → pf = [] → ∀ t, r ≠ 48 :: 120 :: t ∧ r ≠ 48 :: 88 :: t) := by
  rw [hexPrefix.eq_def]
  split
  · rename_i t
    by_cases hb : b = 16
    · exact ⟨[48, 120], t, rfl, .inr ⟨hb, .inl rfl⟩, by rw [if_pos hb], fun _ h => (by cases h)⟩
    · exact ⟨[], _, rfl, .inl rfl, by rw [if_neg hb], fun h => absurd h hb⟩
  · rename_i t
    by_cases hb : b = 16
    · exact ⟨[48, 88], t, rfl, .inr ⟨hb, .inr rfl⟩, by rw [if_pos hb], fun _ h => (by cases h)⟩
    · exact ⟨[], _, rfl, .inl rfl, by rw [if_neg hb], fun h => absurd h hb⟩
  · rename_i h1 h2
    exact ⟨[], s, rfl, .inl rfl, rfl, fun _ _ t => ⟨fun e => h1 t e, fun e => h2 t e⟩⟩

theorem streamInt_iff (b : Nat) (hb : b = 8 ∨ b = 16) (t : Ty) (ht : t.bits ≠ 8) (s : Str) (x : Int) :
    streamInt b t s = .ok x ↔ ∃ neg n, Reads b s neg n ∧ toTy t neg n = .ok x := by
  have hb16 : b ≤ 16 := by omega
  constructor
  · intro h
    unfold streamInt at h
    simp only [] at h
    rw [if_neg ht] at h
    obtain ⟨sg, neg, r, e1, hsg, e2⟩ := sign_split (s.dropWhile isSpace)
    obtain ⟨pf, r2, e3, hpf, e4, hne⟩ := hexPrefix_split b r
    rw [e2] at h
    simp only [e4] at h
    have hds : (r2.takeWhile (fun c => (digit b c).isSome)) ≠ [] := by
      intro hd
      rw [if_neg (by rw [hd]; simp)] at h
      cases h
    rw [if_pos hds] at h
    refine ⟨neg, _, ⟨s.takeWhile isSpace, sg, pf, r2.takeWhile (fun c => (digit b c).isSome), r2.dropWhile (fun c => (digit b c).isSome),
      ?_, ?_, hsg, hpf, ?_, ?_, ?_⟩, h⟩
    · rw [List.takeWhile_append_dropWhile, ← e3, ← e1, List.takeWhile_append_dropWhile]
    · intro c hc
      rw [← isSpace_iff]
      exact List.all_eq_true.1 List.all_takeWhile c hc
    · rw [spells_iff hb16]
      exact ⟨hds, List.all_takeWhile, rfl⟩
    · intro c r3 e
      rw [← digit_none_iff hb16]
      have := List.head?_dropWhile_not (fun c : Byte => (digit b c).isSome) r2
      rw [e] at this
      simpa using this
    · intro h1 h2 h3
      have hr := hne h1 h2
      have e5 : r2 = [48] ++ r2.dropWhile (fun c => (digit b c).isSome) := by
        rw [← h3, List.takeWhile_append_dropWhile]
      constructor
      · intro h6
        cases h7 : r2.dropWhile (fun c => (digit b c).isSome) with
        | nil => rw [h7] at h6; cases h6
        | cons c t =>
          rw [h7] at h6 e5
          simp only [List.head?_cons, Option.some.injEq] at h6
          subst h6
          exact (hr t).1 e5
      · intro h6
        cases h7 : r2.dropWhile (fun c => (digit b c).isSome) with
        | nil => rw [h7] at h6; cases h6
        | cons c t =>
          rw [h7] at h6 e5
          simp only [List.head?_cons, Option.some.injEq] at h6
          subst h6
          exact (hr t).2 e5
  · rintro ⟨neg, n, ⟨ws, sg, pf, ds, rest, rfl, hws, hsg, hpf, hsp, hrest, hno⟩, hx⟩
    obtain ⟨h1, h2, h3⟩ := (spells_iff hb16 ds n).1 hsp
    obtain ⟨c0, d0, rfl⟩ : ∃ c d, ds = c :: d := by
      cases ds with
      | nil => exact absurd rfl h1
      | cons c d => exact ⟨c, d, rfl⟩
    have hall := h2
    simp only [List.all_cons, Bool.and_eq_true] at h2
    have hsp0 : isSpace c0 = false := space_digit b hb16 c0 h2.1
    have hc43 : c0 ≠ 43 := by rintro rfl; rw [digit_plus b hb16] at h2; simp at h2
    have hc45 : c0 ≠ 45 := by rintro rfl; rw [digit_minus b hb16] at h2; simp at h2
    have hdw : (ws ++ (sg ++ (pf ++ (c0 :: d0 ++ rest)))).dropWhile isSpace = sg ++ (pf ++ (c0 :: d0 ++ rest)) := by
      apply dropWhile_append_all
      · intro c hc; rw [isSpace_iff]; exact hws c hc
      · intro c u e
        cases hsg with
        | none =>
          rcases hpf with rfl | ⟨_, rfl | rfl⟩
          · simp only [List.nil_append, List.cons_append, List.cons.injEq] at e
            rw [← e.1]; exact hsp0
          · simp only [List.nil_append, List.cons_append, List.cons.injEq] at e
            rw [← e.1]; rfl
          · simp only [List.nil_append, List.cons_append, List.cons.injEq] at e
            rw [← e.1]; rfl
        | plus => simp only [List.cons_append, List.cons.injEq] at e; rw [← e.1]; rfl
        | minus => simp only [List.cons_append, List.cons.injEq] at e; rw [← e.1]; rfl
    have hsign : sign (sg ++ (pf ++ (c0 :: d0 ++ rest))) = (neg, pf ++ (c0 :: d0 ++ rest)) := by
      cases hsg with
      | none =>
        apply sign_plain
        · rcases hpf with rfl | ⟨_, rfl | rfl⟩ <;> simp [hc45]
        · rcases hpf with rfl | ⟨_, rfl | rfl⟩ <;> simp [hc43]
      | plus => rfl
      | minus => rfl
    have hhex : hexPrefix b (pf ++ (c0 :: d0 ++ rest)) = c0 :: d0 ++ rest := by
      rcases hpf with rfl | ⟨hbb, rfl | rfl⟩
      · rw [List.nil_append, hexPrefix.eq_def]
        have key : ∀ (y : Byte) (u : Str), (y = 120 ∨ y = 88) → c0 :: d0 ++ rest = 48 :: y :: u → b ≠ 16 := by
          intro y u hy e hbb
          simp only [List.cons_append, List.cons.injEq] at e
          obtain ⟨e1, e2⟩ := e
          cases d0 with
          | cons d1 d2 =>
            simp only [List.cons_append, List.cons.injEq] at e2
            simp only [List.all_cons, Bool.and_eq_true] at h2
            have hd1 := h2.2.1
            rw [e2.1, hbb] at hd1
            rcases hy with rfl | rfl <;> exact absurd hd1 (by decide)
          | nil =>
            rw [List.nil_append] at e2
            have := hno hbb rfl (by rw [e1])
            rw [e2] at this
            simp only [List.head?_cons] at this
            rcases hy with rfl | rfl
            · exact this.1 rfl
            · exact this.2 rfl
        split
        · rename_i u e
          rw [if_neg (key 120 u (.inl rfl) e), e]
        · rename_i u e
          rw [if_neg (key 88 u (.inr rfl) e), e]
        · rfl
      · show (if b = 16 then _ else _) = _
        rw [if_pos hbb]; rfl
      · show (if b = 16 then _ else _) = _
        rw [if_pos hbb]; rfl
    have htw : (c0 :: d0 ++ rest).takeWhile (fun c => (digit b c).isSome) = c0 :: d0 := by
      apply takeWhile_append_all
      · intro c hc; exact List.all_eq_true.1 hall c hc
      · intro c u e; rw [digit_none_iff hb16]; exact hrest c u e
    unfold streamInt
    simp only []
    rw [if_neg ht, hdw, hsign]
    simp only []
    rw [hhex, htw, if_pos (by simp), h3]
    exact hx

/-- C96, bases 16 and 8, every type wider than a character: what is returned is the number at the front of the string,
and a string without a number there, or with one the type cannot hold, aborts. This is all the code does; the claim that
nothing follows the number is `stringToInteger_trailing_false`. -/
theorem stringToInteger_radix_partial (b : Nat) (hb : b = 8 ∨ b = 16) (t : Ty) (ht : t.bits ≠ 8) (s : Str) (x : Int) :
    stringToInteger t s b = .ok x ↔ ∃ neg n, Reads b s neg n ∧ Becomes t.signed t.bits neg n x := by
  have e : stringToInteger t s b = streamInt b t s := by
    rcases hb with rfl | rfl <;> rfl
  rw [e, streamInt_iff b hb t ht]
  simp only [toTy_iff]

/-- " -0X1fg" in base 16 and "0179" in base 8. -/
example : stringToInteger int32 [32, 45, 48, 88, 49, 102, 103] 16 = .ok (-31) ∧ stringToInteger int32 [48, 49, 55, 57] 8 = .ok 15 ∧
    stringToInteger int32 [56] 8 = .abort ∧ stringToInteger int32 [48, 120, 103] 16 = .abort ∧
    stringToInteger uint32 [45, 49] 8 = .ok 4294967295 := by decide

/-- C96. Any base but 8, 10 and 16 aborts. -/
theorem stringToInteger_base (t : Ty) (s : Str) (base : Int) (h8 : base ≠ 8) (h10 : base ≠ 10) (h16 : base ≠ 16) :
    stringToInteger t s base = .abort := by
  unfold stringToInteger
  rw [if_neg h10, if_neg h16, if_neg h8]

example : stringToInteger int32 [49] 2 = .abort := by decide

end Verif.Num
