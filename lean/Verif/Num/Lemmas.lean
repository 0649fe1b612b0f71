import Verif.Num.Model
import Verif.Num.Spec

namespace Verif.Num
open Verif.Str Verif.Num.Spec

theorem digitVal_of {c : Byte} {v : Nat} (h : Digit c v) : digitVal c = v := by
  unfold digitVal
  cases h with
  | dec _ _ h1 h2 => rw [if_pos (by omega)]; omega
  | low _ _ h1 h2 h3 => rw [if_neg (by omega), if_pos (by omega)]; omega
  | up _ _ h1 h2 h3 => rw [if_neg (by omega), if_neg (by omega), if_pos (by omega)]; omega

theorem digit_of {b : Nat} {c : Byte} {v : Nat} (h : Digit c v) (hv : v < b) :
    digit b c = some v := by
  unfold digit
  rw [digitVal_of h, if_pos hv]

theorem digit_some {b : Nat} {c : Byte} {v : Nat} (hb : b ≤ 16) (h : digit b c = some v) :
    Digit c v ∧ v < b := by
  unfold digit at h
  by_cases hlt : digitVal c < b
  · rw [if_pos hlt, Option.some.injEq] at h
    rw [h] at hlt
    refine ⟨?_, hlt⟩
    unfold digitVal at h
    by_cases h1 : 48 ≤ c.val ∧ c.val ≤ 57
    · rw [if_pos h1] at h
      exact .dec v c (by omega) (by omega)
    · rw [if_neg h1] at h
      by_cases h2 : 97 ≤ c.val ∧ c.val ≤ 102
      · rw [if_pos h2] at h
        exact .low v c (by omega) (by omega) (by omega)
      · rw [if_neg h2] at h
        by_cases h3 : 65 ≤ c.val ∧ c.val ≤ 70
        · rw [if_pos h3] at h
          exact .up v c (by omega) (by omega) (by omega)
        · rw [if_neg h3] at h; omega
  · rw [if_neg hlt] at h; cases h

theorem value_snoc (b : Nat) (s : Str) (c : Byte) :
    value b (s ++ [c]) = b * value b s + (digit b c).getD 0 := by
  unfold value
  rw [List.foldl_append]; rfl

theorem spells_iff {b : Nat} (hb : b ≤ 16) (s : Str) (n : Nat) :
    Spells b s n ↔ s ≠ [] ∧ s.all (fun c => (digit b c).isSome) = true ∧ value b s = n := by
  constructor
  · intro h
    induction h with
    | one hd hv =>
      have := digit_of hd hv
      refine ⟨by simp, by simp [this], ?_⟩
      simp [value, this]
    | snoc _ hd hv ih =>
      have := digit_of hd hv
      refine ⟨by simp, ?_, ?_⟩
      · rw [List.all_append, ih.2.1]; simp [this]
      · rw [value_snoc, ih.2.2, this]; rfl
  · intro h
    obtain ⟨h1, h2, h3⟩ := h
    subst h3
    -- induction from the right, by length
    have key : ∀ (k : Nat) (s : Str), s.length = k → s ≠ [] →
        s.all (fun c => (digit b c).isSome) = true → Spells b s (value b s) := by
      intro k
      induction k with
      | zero => intro s hs hne _; exact absurd (List.length_eq_zero_iff.1 hs) hne
      | succ k ih =>
        intro s hs hne hall
        obtain ⟨t, c, rfl⟩ : ∃ t c, s = t ++ [c] :=
          ⟨s.dropLast, s.getLast hne, (List.dropLast_concat_getLast hne).symm⟩
        rw [List.all_append, Bool.and_eq_true] at hall
        have hc : (digit b c).isSome = true := by simpa using hall.2
        obtain ⟨v, hv⟩ := Option.isSome_iff_exists.1 hc
        obtain ⟨hd, hlt⟩ := digit_some hb hv
        rw [value_snoc, hv]
        by_cases ht : t = []
        · subst ht
          simp only [List.nil_append, Option.getD_some]
          have : b * value b [] + v = v := by simp [value]
          rw [this]
          exact .one hd hlt
        · exact .snoc (ih t (by simpa using hs) ht hall.1) hd hlt
    exact key _ s rfl h1 h2

theorem digit_plus (b : Nat) (hb : b ≤ 16) : digit b 43 = none := by
  unfold digit
  rw [if_neg (by have : digitVal 43 = 99 := by decide
                 omega)]

theorem digit_minus (b : Nat) (hb : b ≤ 16) : digit b 45 = none := by
  unfold digit
  rw [if_neg (by have : digitVal 45 = 99 := by decide
                 omega)]

theorem sign_plain {s : Str} (h1 : s.head? ≠ some 45) (h2 : s.head? ≠ some 43) :
    sign s = (false, s) := by
  rw [sign.eq_def]
  split
  · next heq => simp at h1
  · next heq => simp at h2
  · rfl

theorem spells_head {b : Nat} {s : Str} {n : Nat} (hb : b ≤ 16) (h : Spells b s n) :
    s.head? ≠ some 45 ∧ s.head? ≠ some 43 := by
  obtain ⟨h1, h2, _⟩ := (spells_iff hb s n).1 h
  cases s with
  | nil => exact absurd rfl h1
  | cons c t =>
    simp only [List.all_cons, Bool.and_eq_true] at h2
    constructor
    · intro hh
      simp only [List.head?_cons, Option.some.injEq] at hh
      subst hh
      rw [digit_minus b hb] at h2; simp at h2
    · intro hh
      simp only [List.head?_cons, Option.some.injEq] at hh
      subst hh
      rw [digit_plus b hb] at h2; simp at h2

/-- What the decimal conversion accepts, and what it returns. -/
theorem lexicalCast_iff (t : Ty) (ht : t.bits ≠ 8) (s : Str) (x : Int) :
    lexicalCast t s = .ok x ↔ ∃ n : Nat,
      (Spells 10 s n ∧ toTy t false n = .ok x) ∨
      (∃ d, s = 43 :: d ∧ Spells 10 d n ∧ toTy t false n = .ok x) ∨
      (∃ d, s = 45 :: d ∧ Spells 10 d n ∧ toTy t true n = .ok x) := by
  have hdef : lexicalCast t s = if (sign s).2 ≠ [] ∧
      (sign s).2.all (fun c => (digit 10 c).isSome) = true
      then toTy t (sign s).1 (value 10 (sign s).2) else .abort := by
    unfold lexicalCast; rw [if_neg ht]
  have hval : ∀ d, Spells 10 d (value 10 d) ↔
      (d ≠ [] ∧ d.all (fun c => (digit 10 c).isSome) = true) := by
    intro d; rw [spells_iff (by omega)]; simp
  rw [hdef]
  constructor
  · intro h
    split at h
    · next hc =>
      have hs := (hval _).2 hc
      refine ⟨value 10 (sign s).2, ?_⟩
      · rw [sign.eq_def] at h hs ⊢
        split at h
        · right; right; exact ⟨_, rfl, by simpa using hs, h⟩
        · right; left; exact ⟨_, rfl, by simpa using hs, h⟩
        · next h1 h2 =>
          left
          refine ⟨?_, h⟩
          split at hs
          · next s' => exact absurd rfl (h1 s')
          · next s' => exact absurd rfl (h2 s')
          · exact hs
    · cases h
  · rintro ⟨n, ⟨hs, hx⟩ | ⟨d, rfl, hs, hx⟩ | ⟨d, rfl, hs, hx⟩⟩
    · obtain ⟨h1, h2⟩ := spells_head (by omega) hs
      obtain ⟨h3, h4, h5⟩ := (spells_iff (by omega) s n).1 hs
      rw [sign_plain h1 h2, if_pos ⟨h3, h4⟩]
      rw [h5]; exact hx
    · obtain ⟨h3, h4, h5⟩ := (spells_iff (by omega) d n).1 hs
      show (if d ≠ [] ∧ d.all (fun c => (digit 10 c).isSome) = true
        then toTy t false (value 10 d) else .abort) = _
      rw [if_pos ⟨h3, h4⟩, h5]; exact hx
    · obtain ⟨h3, h4, h5⟩ := (spells_iff (by omega) d n).1 hs
      show (if d ≠ [] ∧ d.all (fun c => (digit 10 c).isSome) = true
        then toTy t true (value 10 d) else .abort) = _
      rw [if_pos ⟨h3, h4⟩, h5]; exact hx

theorem spells_exists (b : Nat) (hb : 2 ≤ b) (hb' : b ≤ 16) : ∀ n, ∃ s, Spells b s n := by
  have dig : ∀ v, v < b → ∃ c, Digit c v := by
    intro v hv
    by_cases h : v < 10
    · exact ⟨⟨48 + v, by omega⟩, .dec v _ h rfl⟩
    · exact ⟨⟨97 + (v - 10), by omega⟩, .low v _ (by omega) (by omega) rfl⟩
  intro n
  induction n using Nat.strongRecOn with
  | _ n ih =>
    by_cases h : n < b
    · obtain ⟨c, hc⟩ := dig n h
      exact ⟨[c], .one hc h⟩
    · have hdiv : n / b < n := Nat.div_lt_self (by omega) (by omega)
      have hmod : n % b < b := Nat.mod_lt _ (by omega)
      obtain ⟨s, hs⟩ := ih _ hdiv
      obtain ⟨c, hc⟩ := dig _ hmod
      refine ⟨s ++ [c], ?_⟩
      have := Spells.snoc hs hc hmod
      rw [Nat.div_add_mod] at this
      exact this

end Verif.Num
