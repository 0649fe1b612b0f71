import Verif.BMH.Model

/-! # Boyer-Moore-Horspool search: property theorems (C21) -/

namespace Verif.BMH

/-! ## Specification -/

/-- `needle` occurs in `hay` at offset `p`. -/
def OccursAt (needle hay : List Byte) (p : Nat) : Prop :=
  ∃ a b, hay = a ++ needle ++ b ∧ a.length = p

/-- `r` is the offset of the first occurrence, or `none` if there is none. -/
def IsFirst (needle hay : List Byte) : Option Nat → Prop
  | some p => OccursAt needle hay p ∧ ∀ q, q < p → ¬ OccursAt needle hay q
  | none => ∀ q, ¬ OccursAt needle hay q

/-! ## Lemmas -/

theorem occursAt_iff (needle hay : List Byte) (p : Nat) :
    OccursAt needle hay p ↔ p + needle.length ≤ hay.length ∧ ∀ i, i < needle.length → hay[p + i]? = needle[i]? := by
  constructor
  · rintro ⟨a, b, rfl, rfl⟩
    refine ⟨by simp only [List.length_append]; omega, ?_⟩
    intro i hi
    rw [List.append_assoc, List.getElem?_append_right (by omega),
      List.getElem?_append_left (by omega)]
    congr 1; omega
  · rintro ⟨h1, h2⟩
    refine ⟨hay.take p, hay.drop (p + needle.length), ?_, by rw [List.length_take]; omega⟩
    have : needle = (hay.drop p).take needle.length := by
      apply List.ext_getElem?
      intro i
      by_cases hi : i < needle.length
      · rw [List.getElem?_take_of_lt hi, List.getElem?_drop, h2 i hi]
      · rw [List.getElem?_eq_none (by omega), List.getElem?_eq_none]
        rw [List.length_take]; omega
    rw [List.append_assoc]
    conv => rhs; rw [this]
    have e : hay.drop (p + ((hay.drop p).take needle.length).length) = (hay.drop p).drop needle.length := by
      rw [List.drop_drop, ← this]
    rw [← this, show hay.drop (p + needle.length) = (hay.drop p).drop needle.length by rw [List.drop_drop]]
    conv => rhs; rhs; lhs; rw [this]
    rw [List.take_append_drop, List.take_append_drop]

/-- What the shift table must satisfy after the first `k` needle bytes are entered. -/
def TableOk (needle : List Byte) (k : Nat) (shift : List Nat) : Prop :=
  shift.length = 256 ∧ ∀ c : Byte, ∃ s, shift[c.val]? = some s ∧ 1 ≤ s ∧ s ≤ needle.length ∧
    ∀ i, i < k → needle[i]? = some c → s ≤ needle.length - 1 - i

theorem rd_ok {α} {p : List α} {i : Nat} {v : α} (h : p[i]? = some v) : rd p i = .ok v := by
  simp [rd, h]

theorem fillLoop_ok (needle : List Byte) (hn : 0 < needle.length) : ∀ n i shift,
    i + n = needle.length - 1 → TableOk needle i shift →
    ∃ shift', fillLoop needle (needle.length - 1) i shift n = .ok shift' ∧
      TableOk needle (needle.length - 1) shift' := by
  intro n
  induction n with
  | zero => intro i shift hi ht; exact ⟨shift, rfl, by rw [show needle.length - 1 = i by omega]; exact ht⟩
  | succ n ih =>
    intro i shift hi ht
    have hlt : i < needle.length := by omega
    have hc : needle[i]? = some needle[i] := List.getElem?_eq_getElem hlt
    simp only [fillLoop, rd_ok hc, Res.bind_ok]
    apply ih (i + 1) _ (by omega)
    refine ⟨by simp [ht.1], ?_⟩
    intro c
    by_cases hcc : c = needle[i]
    · subst hcc
      refine ⟨needle.length - 1 - i, ?_, by omega, by omega, ?_⟩
      · rw [List.getElem?_set_self (by rw [ht.1]; exact needle[i].isLt)]
      · intro j hj _; omega
    · obtain ⟨s, h1, h2, h3, h4⟩ := ht.2 c
      refine ⟨s, ?_, h2, h3, ?_⟩
      · rw [List.getElem?_set_ne (fun h => hcc (Fin.ext h).symm)]; exact h1
      · intro j hj hjc
        by_cases hji : j = i
        · subst hji; rw [hc] at hjc; exact absurd (Option.some.inj hjc).symm hcc
        · exact h4 j (by omega) hjc

theorem init_ok (needle : List Byte) (hn : needle ≠ []) :
    ∃ shift, init needle = .ok ⟨needle, shift, needle.length - 1⟩ ∧
      TableOk needle (needle.length - 1) shift := by
  have hpos := List.length_pos_iff.2 hn
  obtain ⟨sh, h1, h2⟩ := fillLoop_ok needle hpos (needle.length - 1) 0 (List.replicate 256 needle.length)
    (by omega) ⟨List.length_replicate, fun c => ⟨needle.length, by
      rw [List.getElem?_replicate, if_pos c.isLt], by omega, by omega, fun i hi => by omega⟩⟩
  refine ⟨sh, ?_, h2⟩
  simp only [init, hpos, decide_true, Res.require_true, Res.bind_ok, h1, Res.pure_eq]

theorem cmpLoop_ok (needle hay : List Byte) (off : Nat) (h : off + needle.length ≤ hay.length) :
    ∀ i, i < needle.length → ∃ b, cmpLoop needle hay off i = .ok b ∧
      (b = true ↔ ∀ j, j ≤ i → hay[off + j]? = needle[j]?) := by
  intro i
  induction i with
  | zero =>
    intro hi
    have h1 : hay[off]? = some hay[off] := List.getElem?_eq_getElem (by omega)
    have h2 : needle[0]? = some needle[0] := List.getElem?_eq_getElem hi
    refine ⟨decide (hay[off] = needle[0]), ?_, ?_⟩
    · simp only [cmpLoop, rd_ok h1, rd_ok h2, Res.bind_ok, Res.pure_eq]
    · rw [decide_eq_true_eq]
      constructor
      · intro e j hj
        have : j = 0 := by omega
        subst this
        rw [Nat.add_zero, h1, h2, e]
      · intro e
        have := e 0 (by omega)
        rw [Nat.add_zero, h1, h2] at this
        exact Option.some.inj this
  | succ i ih =>
    intro hi
    have h1 : hay[off + (i + 1)]? = some hay[off + (i + 1)] := List.getElem?_eq_getElem (by omega)
    have h2 : needle[i + 1]? = some needle[i + 1] := List.getElem?_eq_getElem hi
    simp only [cmpLoop, rd_ok h1, rd_ok h2, Res.bind_ok]
    by_cases hc : hay[off + (i + 1)] = needle[i + 1]
    · rw [if_pos hc]
      obtain ⟨b, e, hb⟩ := ih (by omega)
      refine ⟨b, e, hb.trans ?_⟩
      constructor
      · intro e j hj
        by_cases hj' : j = i + 1
        · subst hj'; rw [h1, h2, hc]
        · exact e j (by omega)
      · intro e j hj; exact e j (by omega)
    · rw [if_neg hc]
      refine ⟨false, rfl, by simp, ?_⟩
      intro e
      have := e (i + 1) (by omega)
      rw [h1, h2] at this
      exact absurd (Option.some.inj this) hc

theorem findLoop_ok (needle hay : List Byte) (shift : List Nat) (hn : needle ≠ [])
    (ht : TableOk needle (needle.length - 1) shift) : ∀ fuel off hayLen,
    off + hayLen = hay.length → hayLen < fuel → (∀ q, q < off → ¬ OccursAt needle hay q) →
    ∃ r, findLoop ⟨needle, shift, needle.length - 1⟩ hay fuel off hayLen = .ok r ∧ IsFirst needle hay r := by
  have hpos := List.length_pos_iff.2 hn
  intro fuel
  induction fuel with
  | zero => intro off hayLen _ h; omega
  | succ fuel ih =>
    intro off hayLen ho hf hprev
    by_cases hlen : hayLen ≥ needle.length
    · obtain ⟨b, e, hb⟩ := cmpLoop_ok needle hay off (by omega) (needle.length - 1) (by omega)
      have hl : hay[off + (needle.length - 1)]? = some hay[off + (needle.length - 1)] :=
        List.getElem?_eq_getElem (by omega)
      simp only [findLoop, hlen, if_true, e, Res.bind_ok]
      cases hbb : b with
      | true =>
        refine ⟨some off, by simp, ?_, hprev⟩
        rw [occursAt_iff]
        refine ⟨by omega, fun i hi => hb.1 hbb i (by omega)⟩
      | false =>
        obtain ⟨s, h1, h2, h3, h4⟩ := ht.2 hay[off + (needle.length - 1)]
        simp only [Bool.false_eq_true, if_false, rd_ok hl, rd_ok h1, Res.bind_ok]
        rw [if_neg (by omega)]
        apply ih (off + s) (hayLen - s) (by omega) (by omega)
        intro q hq hocc
        by_cases hq' : q < off
        · exact hprev q hq' hocc
        · rw [occursAt_iff] at hocc
          by_cases hqo : q = off
          · subst hqo
            have : b = true := hb.2 (fun j hj => hocc.2 j (by omega))
            rw [hbb] at this; cases this
          · have := hocc.2 (off + (needle.length - 1) - q) (by omega)
            rw [show q + (off + (needle.length - 1) - q) = off + (needle.length - 1) by omega, hl] at this
            have := h4 _ (by omega) this.symm
            omega
    · refine ⟨none, by simp [findLoop, hlen], ?_⟩
      intro q hocc
      by_cases hq : q < off
      · exact hprev q hq hocc
      · have := (occursAt_iff needle hay q).1 hocc
        omega

/-! ## C21 -/

/-- **C21a.** For every non-empty needle and every haystack, `find` terminates without
touching memory outside either of them, and returns the offset of the first occurrence, or
`npos` when there is none. -/
theorem find_first (needle hay : List Byte) (hn : needle ≠ []) :
    ∃ s r, init needle = .ok s ∧ find s hay = .ok r ∧ IsFirst needle hay r := by
  obtain ⟨sh, h1, h2⟩ := init_ok needle hn
  obtain ⟨r, h3, h4⟩ := findLoop_ok needle hay sh hn h2 (hay.length + 1) 0 hay.length (by omega) (by omega)
    (fun q hq => by omega)
  exact ⟨_, r, h1, h3, h4⟩

/-- **C21b.** `matches` holds iff the needle is a contiguous part of the haystack. -/
theorem matches_iff (needle hay : List Byte) (hn : needle ≠ []) :
    ∃ s b, init needle = .ok s ∧ matches' s hay = .ok b ∧ (b = true ↔ ∃ a c, hay = a ++ needle ++ c) := by
  obtain ⟨s, r, h1, h2, h3⟩ := find_first needle hay hn
  refine ⟨s, r.isSome, h1, by simp [matches', h2], ?_⟩
  cases r with
  | none =>
    simp only [Option.isSome_none, Bool.false_eq_true, false_iff]
    rintro ⟨a, c, h⟩
    exact h3 a.length ⟨a, c, h, rfl⟩
  | some p =>
    simp only [Option.isSome_some, true_iff]
    obtain ⟨a, c, h, _⟩ := h3.1
    exact ⟨a, c, h⟩

/-- The same searcher can be used for any number of haystacks: what it returns does not
depend on anything but needle and haystack, and is unique. -/
theorem first_unique (needle hay : List Byte) (r r' : Option Nat) (h : IsFirst needle hay r)
    (h' : IsFirst needle hay r') : r = r' := by
  cases r with
  | none => cases r' with
    | none => rfl
    | some p => exact absurd h'.1 (h p)
  | some p => cases r' with
    | none => exact absurd h.1 (h' p)
    | some q =>
      rcases Nat.lt_trichotomy p q with hpq | hpq | hpq
      · exact absurd h.1 (h'.2 p hpq)
      · rw [hpq]
      · exact absurd h'.1 (h.2 q hpq)

/-- An empty needle aborts in the constructor. -/
theorem empty_needle_aborts : init [] = .abort := rfl

example : (init [1, 2, 1]).bind (fun s => find s [1, 1, 2, 2, 1, 2, 1, 2, 1]) = .ok (some 4) := by decide
example : (init [1, 2, 1]).bind (fun s => find s [1, 2, 2, 1]) = .ok none := by decide

end Verif.BMH
