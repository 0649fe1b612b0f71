import Verif.MathFn.Lemmas2

/-! # C99, C100: numeric conversions, inverse error function -/

namespace Verif.MathFn
open Verif.Flt
open D

/-! ## C99 -/

/-- The largest value allowed, in numbers. -/
theorem maxOf_eq (R : Rounding) : maxOf R 4 = 2 ^ 31 - 1 ∧ maxOf ieee 8 = 2 ^ 63 ∧ 2 ^ 62 ≤ maxOf R 8 := by
  refine ⟨?_, ?_, ?_⟩
  · unfold maxOf
    norm_num
    exact R.exact ⟨2147483647, 0, by norm_num, by norm_num⟩
  · unfold maxOf
    rw [ieee_at (L := 62) (by norm_num) (by norm_num)]
    norm_num
    have : (9223372036854775807 : ℚ) / 1024 = ((9007199254740991 : ℤ) : ℚ) + 1023 / 1024 := by norm_num
    rw [this]
    unfold rne
    have hf : ⌊((9007199254740991 : ℤ) : ℚ) + 1023 / 1024⌋ = 9007199254740991 := by
      rw [Int.floor_eq_iff]; norm_num
    have hr : Int.fract (((9007199254740991 : ℤ) : ℚ) + 1023 / 1024) = 1023 / 1024 := by
      unfold Int.fract; rw [hf]; ring
    rw [hr, hf]
    norm_num
  · unfold maxOf
    exact R.ge_of_double ⟨1, 62, by norm_num, by norm_num⟩ (by norm_num)

/-- C99. A finite double is accepted for a type of 8 bytes exactly when it lies within a sixteenth of an integer and its
size is at most `2^49`; for a `long` of 4 bytes it must also be smaller in size than `2^31 - 1`. -/
theorem isDoubleIntegral_iff {longSize size : Nat} (hl : longSize = 4 ∨ longSize = 8) (hs : size = longSize ∨ size = 8) {d : ℚ} (hd : IsDouble d) :
    ∃ b, isDoubleIntegral ieee longSize (fin d) size = .ok b ∧
      (b = true ↔ NearInt d ∧ |d| ≤ 2 ^ 49 ∧ (size = 4 → |d| < 2 ^ 31 - 1)) := by
  have hsz : size = 4 ∨ size = 8 := by omega
  have hpos : 0 < size := by omega
  unfold isDoubleIntegral
  rw [decide_eq_true ⟨hpos, hs⟩, Res.require_true, Res.bind_ok]
  refine ⟨_, rfl, ?_⟩
  obtain ⟨m1, m2, _⟩ := maxOf_eq ieee
  obtain ⟨lim, hlim, hcase⟩ : ∃ lim : ℚ, (if size = 8 then maxOf ieee 8 else maxOf ieee longSize) = lim ∧
      ((size = 4 ∧ lim = 2 ^ 31 - 1) ∨ (size = 8 ∧ lim = 2 ^ 63)) := by
    rcases hsz with rfl | rfl
    · have : longSize = 4 := by omega
      subst this
      exact ⟨_, rfl, Or.inl ⟨rfl, by simp [m1]⟩⟩
    · exact ⟨_, rfl, Or.inr ⟨rfl, by simp [m2]⟩⟩
  rw [hlim]
  have hlimit : |d| ≤ 2 ^ 49 → ((size = 4 → |d| < 2 ^ 31 - 1) ↔ |d| < lim) := by
    intro hle
    rcases hcase with ⟨rfl, rfl⟩ | ⟨rfl, rfl⟩
    · simp
    · simp only [Nat.reduceEqDiff, false_implies, true_iff]
      refine lt_of_le_of_lt hle (by norm_num)
  by_cases hbig : lim ≤ |d|
  · have e : ge (D.abs (fin d)) (fin lim) = true := by simp [D.abs, ge, hbig]
    rw [if_pos e]
    simp only [Bool.false_eq_true, false_iff]
    rintro ⟨_, hle, hlt⟩
    have := (hlimit hle).1 hlt
    linarith
  · have e : ¬ge (D.abs (fin d)) (fin lim) = true := by simpa [D.abs, ge] using hbig
    rw [if_neg e]
    by_cases hn : NearInt d
    · rw [if_neg (fun h => (rep_ge ieee hd).1 h hn)]
      have ep : add ieee (fin d) (fin (1 / 16)) = fin (ieee.rnd (d + 1 / 16)) := rfl
      have em : sub ieee (fin d) (fin (1 / 16)) = fin (ieee.rnd (d - 1 / 16)) := by
        rw [sub_eq_add_neg]; rfl
      rw [ep, em]
      by_cases hle : |d| ≤ 2 ^ 49
      · obtain ⟨n, hn'⟩ := hn
        rw [if_neg]
        · simp only [true_iff]
          exact ⟨⟨n, hn'⟩, hle, (hlimit hle).2 (not_le.1 hbig)⟩
        · rw [Bool.and_eq_true, rep_lt ieee (ieee.isDouble _), rep_lt ieee (ieee.isDouble _)]
          exact neighbours_small ieee hle hn'
      · obtain ⟨n, rfl⟩ := near_large hd (not_le.1 hle) hn
        have hnb : 2 ^ 49 < |n| := by
          have := not_le.1 hle
          exact_mod_cast this
        have e1 := neighbours_large hd hnb (s := 1 / 16) (Or.inl rfl)
        have e2 := neighbours_large hd hnb (s := -1 / 16) (Or.inr rfl)
        rw [show (n : ℚ) + -1 / 16 = n - 1 / 16 by ring] at e2
        rw [if_pos]
        · simp only [Bool.false_eq_true, false_iff]
          exact fun h => hle h.2.1
        · rw [Bool.and_eq_true, rep_lt ieee (ieee.isDouble _), rep_lt ieee (ieee.isDouble _), e1, e2]
          exact ⟨hn, hn⟩
    · rw [if_pos ((rep_ge ieee hd).2 hn)]
      simp only [Bool.false_eq_true, false_iff]
      exact fun h => hn h.1

-- `2^49` is accepted, the next integer is not; `5 + 1/32` is near enough, `5 + 1/16` is not; `LONG_MAX` of 4 bytes is refused
example : isDoubleIntegral ieee 8 (fin (2 ^ 49)) 8 = .ok true ∧ isDoubleIntegral ieee 8 (fin (2 ^ 49 + 1)) 8 = .ok false ∧
    isDoubleIntegral ieee 8 (fin (5 + 1 / 32)) 8 = .ok true ∧ isDoubleIntegral ieee 8 (fin (5 + 1 / 16)) 8 = .ok false ∧
    isDoubleIntegral ieee 4 (fin (2 ^ 31 - 2)) 4 = .ok true ∧ isDoubleIntegral ieee 4 (fin (2 ^ 31 - 1)) 4 = .ok false := by decide +kernel

/-- C99. Any other size ends the program. -/
theorem isDoubleIntegral_size (R : Rounding) {longSize size : Nat} (d : D) (h : size = 0 ∨ (size ≠ longSize ∧ size ≠ 8)) :
    isDoubleIntegral R longSize d size = .abort := by
  unfold isDoubleIntegral
  rw [decide_eq_false (by omega)]
  rfl

example : isDoubleIntegral ieee 8 (fin 1) 4 = .abort := isDoubleIntegral_size ieee _ (by decide)

/-- C99 (violation). NaN is taken for an integer; an infinity is not. -/
theorem isDoubleIntegral_nan (R : Rounding) {longSize size : Nat} (h0 : 0 < size) (hs : size = longSize ∨ size = 8) (s : Bool) :
    isDoubleIntegral R longSize nan size = .ok true ∧ isDoubleIntegral R longSize (inf s) size = .ok false := by
  unfold isDoubleIntegral
  rw [decide_eq_true ⟨h0, hs⟩]
  exact ⟨rfl, rfl⟩

/-- C99. The conversion adds a half, away from zero, and drops the fraction. It returns the nearest integer, halves away from zero,
except for the doubles listed in `Misrounded`, for which it returns the integer one further from zero; it is undefined
when that does not fit. -/
theorem convertDouble_eq (size : Nat) {d : ℚ} (hd : IsDouble d) :
    ∃ n : ℤ, (Misrounded d → n = further d (nearestAway d)) ∧ (¬Misrounded d → n = nearestAway d) ∧
      (Fits size n → convertDouble ieee size (fin d) = .ok n) ∧ (¬Fits size n → convertDouble ieee size (fin d) = .ub) := by
  by_cases h0 : 0 ≤ d
  · obtain ⟨h1, h2⟩ := half_pos hd h0
    refine ⟨trunc (ieee.rnd (d + 1 / 2)), ?_, ?_, ?_, ?_⟩
    · intro hm; rw [h1 hm, further, nearestAway, if_pos h0, if_pos h0]
    · intro hm; rw [h2 hm, nearestAway, if_pos h0]
    · intro hf
      simp only [convertDouble, ge, decide_eq_true h0, if_true, add, toInt]
      exact if_pos hf
    · intro hf
      simp only [convertDouble, ge, decide_eq_true h0, if_true, add, toInt]
      exact if_neg hf
  · have hneg : 0 ≤ -d := by linarith
    obtain ⟨h1, h2⟩ := half_pos (isDouble_neg hd) hneg
    have e : ieee.rnd (d + -1 / 2) = -ieee.rnd (-d + 1 / 2) := by
      rw [← Verif.Histo.ieee_neg]; congr 1; ring
    refine ⟨trunc (ieee.rnd (d + -1 / 2)), ?_, ?_, ?_, ?_⟩
    · intro hm
      rw [e, trunc_neg, h1 (misrounded_neg.2 hm), further, nearestAway, if_neg h0, if_neg h0]; ring
    · intro hm
      rw [e, trunc_neg, h2 (fun h => hm (misrounded_neg.1 h)), nearestAway, if_neg h0]
    · intro hf
      simp only [convertDouble, ge, decide_eq_false h0, Bool.false_eq_true, if_false, add, toInt]
      exact if_pos hf
    · intro hf
      simp only [convertDouble, ge, decide_eq_false h0, Bool.false_eq_true, if_false, add, toInt]
      exact if_neg hf

-- halves go away from zero; the double next to a half goes to one; `2^52 + 1` goes to `2^52 + 2`; `2^63` is undefined
example : convertDouble ieee 8 (fin (5 / 2)) = .ok 3 ∧ convertDouble ieee 8 (fin (-5 / 2)) = .ok (-3) ∧ convertDouble ieee 8 (fin (-7 / 4)) = .ok (-2) ∧
    convertDouble ieee 8 (fin (2 ^ 62)) = .ok (2 ^ 62) ∧ convertDouble ieee 8 (fin (2 ^ 63)) = .ub ∧ convertDouble ieee 8 nan = .ub := by decide +kernel

/-- C99 (violation). Within 63 bits the conversion is not always the nearest integer. -/
theorem convertDouble_not_nearest :
    convertDouble ieee 8 (fin (1 / 2 - 1 / 2 ^ 54)) = .ok 1 ∧ nearestAway (1 / 2 - 1 / 2 ^ 54) = 0 ∧
    convertDouble ieee 8 (fin (2 ^ 52 + 1)) = .ok (2 ^ 52 + 2) ∧ nearestAway (2 ^ 52 + 1) = 2 ^ 52 + 1 := by decide +kernel

theorem nearestAway_near {d : ℚ} {n : ℤ} (h : |d - n| < 1 / 2) : nearestAway d = n := by
  have := abs_lt.1 h
  unfold nearestAway
  split
  · rw [Int.floor_eq_iff]; constructor <;> linarith
  · have : ⌊-d + 1 / 2⌋ = -n := by
      rw [Int.floor_eq_iff]; push_cast; constructor <;> linarith
    rw [this, neg_neg]

/-- C99. Every finite double that `isDoubleIntegral` accepts is converted, without undefined behaviour, to the integer it is near to. -/
theorem accepted_converts {longSize size : Nat} (hl : longSize = 4 ∨ longSize = 8) (hs : size = longSize ∨ size = 8) {d : ℚ} (hd : IsDouble d)
    (h : isDoubleIntegral ieee longSize (fin d) size = .ok true) :
    ∃ n : ℤ, convertDouble ieee size (fin d) = .ok n ∧ |d - n| < 1 / 16 := by
  obtain ⟨b, hb, hiff⟩ := isDoubleIntegral_iff hl hs hd
  rw [h] at hb
  cases hb
  obtain ⟨⟨n, hn⟩, hle, h4⟩ := hiff.1 rfl
  have hmis : ¬Misrounded d := by
    rintro (hm | ⟨hm, _⟩)
    · have hn' := abs_lt.1 hn
      rcases abs_cases d with ⟨ha, hb⟩ | ⟨ha, hb⟩
      · rw [ha] at hm
        rw [hm] at hn'
        norm_num at hn'
        have l : (0 : ℚ) < n := by linarith
        have u : (n : ℚ) < 1 := by linarith
        have l' : 0 < n := by exact_mod_cast l
        have u' : n < 1 := by exact_mod_cast u
        omega
      · rw [ha] at hm
        have hd' : d = -(1 / 2 - 1 / 2 ^ 54) := by linarith
        rw [hd'] at hn'
        norm_num at hn'
        have l : (-1 : ℚ) < n := by linarith
        have u : (n : ℚ) < 0 := by linarith
        have l' : -1 < n := by exact_mod_cast l
        have u' : n < 0 := by exact_mod_cast u
        omega
    · norm_num at hm hle
      linarith
  obtain ⟨k, _, hk, hok, _⟩ := convertDouble_eq size hd
  have hkn : k = n := by rw [hk hmis, nearestAway_near (n := n) (by linarith)]
  refine ⟨n, ?_, hn⟩
  rw [hkn] at hok
  apply hok
  have hn' := abs_lt.1 hn
  have hd' := abs_le.1 hle
  have hsz : size = 4 ∨ size = 8 := by omega
  rcases hsz with rfl | rfl
  · have hb := abs_lt.1 (h4 rfl)
    have u : (n : ℚ) < 2 ^ 31 := by linarith
    have l : -(2 : ℚ) ^ 31 - 1 < n := by linarith
    have u' : n < 2 ^ 31 := by exact_mod_cast u
    have l' : -2 ^ 31 - 1 < n := by exact_mod_cast l
    unfold Fits
    omega
  · have u : (n : ℚ) < 2 ^ 49 + 1 := by linarith
    have l : -(2 : ℚ) ^ 49 - 1 < n := by linarith
    have u' : n < 2 ^ 49 + 1 := by exact_mod_cast u
    have l' : -2 ^ 49 - 1 < n := by exact_mod_cast l
    unfold Fits
    omega

example : isDoubleIntegral ieee 4 (fin (-2147483646 + 1 / 32)) 4 = .ok true ∧ convertDouble ieee 4 (fin (-2147483646 + 1 / 32)) = .ok (-2147483646) := by decide +kernel

end Verif.MathFn
