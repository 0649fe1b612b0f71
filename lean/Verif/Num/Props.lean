import Verif.Num.Lemmas

/-!
# C96: `stringToInteger`
-/

namespace Verif.Num
open Verif.Str Verif.Num.Spec

theorem toTy_signed (bits : Nat) (neg : Bool) (n : Nat) (x : Int) :
    toTy ⟨true, bits⟩ neg n = .ok x ↔
      x = (if neg then -(n : Int) else n) ∧ InRange true bits x := by
  unfold toTy InRange
  simp only [if_true]
  have hpos : 0 < 2 ^ (bits - 1) := Nat.two_pow_pos _
  generalize 2 ^ (bits - 1) = m at *
  cases neg
  · simp only [Bool.false_eq_true, if_false]
    by_cases h : n < m
    · rw [if_pos h, Res.ok.injEq]; omega
    · rw [if_neg h]
      constructor
      · intro h; cases h
      · intro h; omega
  · simp only [if_true]
    by_cases h : n ≤ m
    · rw [if_pos h, Res.ok.injEq]
      constructor
      · intro h; omega
      · intro h; omega
    · rw [if_neg h]
      constructor
      · intro h; cases h
      · intro h; omega

/-- C96, signed types of 16, 32 or 64 bits, base 10: the conversion returns `x` exactly when
the string spells `x` and `x` fits; every other string aborts. -/
theorem stringToInteger_signed (bits : Nat) (hb : bits ≠ 8) (s : Str) (x : Int) :
    stringToInteger ⟨true, bits⟩ s = .ok x ↔ SpellsInt 10 s x ∧ InRange true bits x := by
  unfold stringToInteger
  rw [if_pos rfl, lexicalCast_iff _ hb]
  constructor
  · rintro ⟨n, ⟨hs, hx⟩ | ⟨d, rfl, hs, hx⟩ | ⟨d, rfl, hs, hx⟩⟩
    · rw [toTy_signed] at hx
      refine ⟨?_, hx.2⟩
      rw [hx.1]; exact .plain hs
    · rw [toTy_signed] at hx
      refine ⟨?_, hx.2⟩
      rw [hx.1]; exact .plus hs
    · rw [toTy_signed] at hx
      refine ⟨?_, hx.2⟩
      rw [hx.1]; exact .minus hs
  · rintro ⟨h, hr⟩
    cases h with
    | plain hs => exact ⟨_, .inl ⟨hs, (toTy_signed _ _ _ _).2 ⟨rfl, hr⟩⟩⟩
    | plus hs => exact ⟨_, .inr (.inl ⟨_, rfl, hs, (toTy_signed _ _ _ _).2 ⟨rfl, hr⟩⟩)⟩
    | minus hs => exact ⟨_, .inr (.inr ⟨_, rfl, hs, (toTy_signed _ _ _ _).2 ⟨rfl, hr⟩⟩)⟩

/-- The decimal conversion never does anything undefined: it returns or aborts. -/
theorem stringToInteger_defined (t : Ty) (s : Str) (base : Int) :
    stringToInteger t s base ≠ .ub := by
  have h1 : ∀ neg n, toTy t neg n ≠ .ub := by
    intro neg n
    unfold toTy
    cases t.signed <;> cases neg <;> simp only [if_true, if_false, Bool.false_eq_true] <;>
      split <;> simp
  have h2 : ∀ b, streamInt b t s ≠ .ub := by
    intro b
    unfold streamInt
    simp only []
    split
    · split <;> simp
    · split
      · exact h1 _ _
      · simp
  unfold stringToInteger
  split
  · unfold lexicalCast
    split
    · split <;> simp
    · simp only []
      split
      · exact h1 _ _
      · simp
  · split
    · exact h2 16
    · split
      · exact h2 8
      · simp

/-- C96, unsigned types, base 10: a string that spells a number in range converts to it, and
what is accepted spells a number congruent to the result.  Missing: rejection of negative
numbers, which are accepted and wrap (see `stringToInteger_negative_false`). -/
theorem stringToInteger_unsigned_partial (bits : Nat) (hb : bits ≠ 8) (s : Str) (x : Int) :
    (SpellsInt 10 s x → InRange false bits x → stringToInteger ⟨false, bits⟩ s = .ok x) ∧
    (stringToInteger ⟨false, bits⟩ s = .ok x → InRange false bits x ∧
      ∃ y, SpellsInt 10 s y ∧ (2 ^ bits : Nat) ∣ (x - y).natAbs ∧ y.natAbs < 2 ^ bits ∧
        (0 ≤ y → y = x)) := by
  have hpos : 0 < 2 ^ bits := Nat.two_pow_pos bits
  unfold stringToInteger
  rw [if_pos rfl]
  constructor
  · intro h hr
    rw [lexicalCast_iff _ hb]
    unfold InRange at hr
    simp only [Bool.false_eq_true, if_false] at hr
    cases h with
    | @plain _ n hs =>
      refine ⟨n, .inl ⟨hs, ?_⟩⟩
      unfold toTy
      simp only [Bool.false_eq_true, if_false]
      rw [if_pos (by omega)]
    | @plus s n hs =>
      refine ⟨n, .inr (.inl ⟨s, rfl, hs, ?_⟩)⟩
      unfold toTy
      simp only [Bool.false_eq_true, if_false]
      rw [if_pos (by omega)]
    | @minus s n hs =>
      refine ⟨n, .inr (.inr ⟨s, rfl, hs, ?_⟩)⟩
      have hn : n = 0 := by omega
      subst hn
      unfold toTy
      simp only [Bool.false_eq_true, if_false, if_true]
      rw [if_pos hpos]
      simp
  · intro h
    rw [lexicalCast_iff _ hb] at h
    unfold InRange
    simp only [Bool.false_eq_true, if_false]
    have pos : ∀ n, toTy ⟨false, bits⟩ false n = .ok x → n < 2 ^ bits ∧ x = n := by
      intro n hx
      unfold toTy at hx
      simp only [Bool.false_eq_true, if_false] at hx
      split at hx
      · next hlt => cases hx; exact ⟨hlt, rfl⟩
      · cases hx
    obtain ⟨n, ⟨hs, hx⟩ | ⟨d, rfl, hs, hx⟩ | ⟨d, rfl, hs, hx⟩⟩ := h
    · obtain ⟨h1, rfl⟩ := pos n hx
      exact ⟨by omega, n, .plain hs, by simp, by omega, fun _ => rfl⟩
    · obtain ⟨h1, rfl⟩ := pos n hx
      exact ⟨by omega, n, .plus hs, by simp, by omega, fun _ => rfl⟩
    · unfold toTy at hx
      simp only [Bool.false_eq_true, if_false, if_true] at hx
      split at hx
      · next h =>
        simp only [Res.ok.injEq] at hx
        generalize 2 ^ bits = m at *
        have hm : (m - n) % m = if n = 0 then 0 else m - n := by
          by_cases h0 : n = 0
          · rw [if_pos h0, h0]; simp
          · rw [if_neg h0]; exact Nat.mod_eq_of_lt (by omega)
        rw [hm] at hx
        by_cases h0 : n = 0
        · rw [if_pos h0] at hx
          subst h0
          subst hx
          exact ⟨by omega, _, .minus hs, by simp, by simpa using hpos, fun _ => by simp⟩
        · rw [if_neg h0] at hx
          refine ⟨by omega, _, .minus hs, ?_, by omega, fun hge => by omega⟩
          have : (x - -(n : Int)).natAbs = m := by omega
          rw [this]
          exact Nat.dvd_refl m
      · cases hx

/-- Every integer of the type has a spelling that converts back to it (base 10). -/
theorem stringToInteger_onto (signed : Bool) (bits : Nat) (hb : bits ≠ 8) (x : Int)
    (hx : InRange signed bits x) :
    ∃ s, SpellsInt 10 s x ∧ stringToInteger ⟨signed, bits⟩ s = .ok x := by
  obtain ⟨s, hs⟩ := spells_exists 10 (by omega) (by omega) x.natAbs
  have : ∃ s, SpellsInt 10 s x := by
    by_cases h : 0 ≤ x
    · exact ⟨s, by have := SpellsInt.plain hs; rwa [show ((x.natAbs : Nat) : Int) = x by omega] at this⟩
    · exact ⟨45 :: s, by have := SpellsInt.minus hs; rwa [show -((x.natAbs : Nat) : Int) = x by omega] at this⟩
  obtain ⟨s, hs⟩ := this
  refine ⟨s, hs, ?_⟩
  cases signed
  · exact (stringToInteger_unsigned_partial bits hb s x).1 hs hx
  · exact (stringToInteger_signed bits hb s x).2 ⟨hs, hx⟩

/-- "-2133324" as in the unit test, and the smallest `int32_t`. -/
example : stringToInteger int32 [45, 50, 49, 51, 51, 51, 50, 52] = .ok (-2133324) ∧
    stringToInteger int32 [45, 50, 49, 52, 55, 52, 56, 51, 54, 52, 56] = .ok (-2147483648) ∧
    stringToInteger int32 [50, 49, 52, 55, 52, 56, 51, 54, 52, 56] = .abort ∧
    stringToInteger int32 [49, 50, 97] = .abort := by decide

/-- C96 fails for unsigned types: "-1" is accepted as 4294967295. -/
theorem stringToInteger_negative_false :
    ∃ s x, stringToInteger uint32 s = .ok x ∧ ∀ y, SpellsInt 10 s y → y ≠ x := by
  refine ⟨[45, 49], 4294967295, by decide, ?_⟩
  intro y hy
  generalize hs : ([45, 49] : Str) = s at hy
  cases hy with
  | plain h => subst hs; exact absurd rfl (spells_head (by omega) h).1
  | plus h => cases hs
  | minus h => omega

/-- C96 fails for the 8-bit types: "7" converts to 55 (the character) and "12" aborts. -/
theorem stringToInteger_char_false :
    stringToInteger uint8 [55] = .ok 55 ∧ stringToInteger uint8 [49, 50] = .abort ∧
    stringToInteger int8 [45, 53] = .abort := by decide

/-! ## Bases 16 and 8 -/

theorem takeWhile_all {p : Byte → Bool} : ∀ {l : Str}, l.all p = true → l.takeWhile p = l := by
  intro l
  induction l with
  | nil => intro _; rfl
  | cons c t ih =>
    intro h
    simp only [List.all_cons, Bool.and_eq_true] at h
    rw [List.takeWhile_cons_of_pos h.1, ih h.2]

theorem space_digit (b : Nat) (hb : b ≤ 16) (c : Byte) (h : (digit b c).isSome = true) :
    isSpace c = false := by
  obtain ⟨v, hv⟩ := Option.isSome_iff_exists.1 h
  have hd := (digit_some hb hv).1
  unfold isSpace
  have : c.val ≥ 48 := by cases hd <;> omega
  rw [Bool.or_eq_false_iff]
  constructor
  · apply decide_eq_false
    intro hc
    rw [hc] at this
    exact absurd this (by decide)
  · rw [Bool.and_eq_false_iff]; right; apply decide_eq_false; omega

/-- C96, base 16 and 8: a string of digits (after `0x` or not, for base 16) converts to its
value when that fits; missing: rejection of everything else
(`stringToInteger_trailing_false`). -/
theorem stringToInteger_hex_partial (t : Ty) (ht : t.bits ≠ 8) (s : Str) (n : Nat)
    (h : Spells 16 s n) (hr : InRange t.signed t.bits n) :
    stringToInteger t s 16 = .ok n ∧ stringToInteger t (48 :: 120 :: s) 16 = .ok n := by
  obtain ⟨h1, h2, h3⟩ := (spells_iff (by omega) s n).1 h
  have hto : toTy t false n = .ok n := by
    unfold toTy
    unfold InRange at hr
    cases hs : t.signed
    · rw [hs] at hr
      simp only [Bool.false_eq_true, if_false] at hr ⊢
      rw [if_pos (by omega)]
    · rw [hs] at hr
      simp only [if_true, Bool.false_eq_true, if_false] at hr ⊢
      rw [if_pos (by omega)]
  have hx : digit 16 120 = none := by decide
  have hX : digit 16 88 = none := by decide
  constructor
  · show streamInt 16 t s = _
    have hdw : s.dropWhile isSpace = s := by
      cases s with
      | nil => rfl
      | cons c r =>
        simp only [List.all_cons, Bool.and_eq_true] at h2
        rw [List.dropWhile_cons_of_neg]
        rw [space_digit 16 (by omega) c h2.1]; simp
    obtain ⟨g1, g2⟩ := spells_head (by omega) h
    have hp : hexPrefix 16 s = s := by
      rw [hexPrefix.eq_def]
      split
      · simp only [List.all_cons, hx] at h2; simp at h2
      · simp only [List.all_cons, hX] at h2; simp at h2
      · rfl
    unfold streamInt
    simp only []
    rw [hdw, if_neg ht, sign_plain g1 g2]
    simp only []
    rw [hp, takeWhile_all h2, if_pos h1, h3]
    exact hto
  · show streamInt 16 t (48 :: 120 :: s) = _
    unfold streamInt
    simp only []
    rw [show (48 :: 120 :: s : Str).dropWhile isSpace = 48 :: 120 :: s from rfl, if_neg ht]
    show (if (List.takeWhile (fun c => (digit 16 c).isSome) s) ≠ [] then
      toTy t false (value 16 (List.takeWhile (fun c => (digit 16 c).isSome) s)) else .abort) = _
    rw [takeWhile_all h2, if_pos h1, h3]
    exact hto

/-- "0x1234abcd" in base 16, as in the unit test, meets the hypotheses. -/
example : stringToInteger int32 [48, 120, 49, 50, 51, 52, 97, 98, 99, 100] 16 = .ok 305441741 := by
  decide

/-- C96 fails for base 16: "12zz" is accepted as 18 although documented to abort. -/
theorem stringToInteger_trailing_false :
    stringToInteger int32 [49, 50, 122, 122] 16 = .ok 18 ∧
    stringToInteger int32 [49, 50, 122, 122] 10 = .abort := by decide

end Verif.Num
