import Verif.Str.Spec

namespace Verif.Str

theorem int32_nat (p : Nat) (h : p < 2147483648) : int32 (p : Int) = p := by
  unfold int32; rw [Int.bmod_def]; split <;> omega

theorem int32_npos : int32 (npos : Nat) = -1 := by decide

theorem toSize_nat (p : Nat) (h : p < 2147483648) : toSize (p : Int) = p := by
  unfold toSize; omega

theorem toSize_sub {p q n : Nat} (h1 : q ≤ p) (h2 : p ≤ n) (h3 : n < 2147483648) :
    toSize ((p : Int) - q) = p - q := by
  rw [show (p : Int) - q = ((p - q : Nat) : Int) by omega]
  exact toSize_nat _ (by omega)

theorem int32_toSize_add {p k n : Nat} (h2 : p + k ≤ n) (h3 : n < 2147483648) :
    int32 ((toSize (p : Int) : Int) + k) = ((p + k : Nat) : Int) := by
  rw [toSize_nat p (by omega), ← Int.natCast_add]
  exact int32_nat _ (by omega)

theorem find_eq {s pat : Str} {pos p : Nat} (h1 : pos ≤ p) (h2 : p ≤ s.length)
    (h3 : pat <+: s.drop p) (h4 : ∀ q, pos ≤ q → q < p → ¬ pat <+: s.drop q) :
    findOpt s pat pos = some p := by
  unfold findOpt
  rw [List.find?_range'_eq_some]
  refine ⟨List.isPrefixOf_iff_prefix.2 h3, ?_, ?_⟩
  · simp [List.mem_range']; exact ⟨p - pos, by omega, by omega⟩
  · intro j hj1 hj2
    have := h4 j hj1 hj2
    simpa [← List.isPrefixOf_iff_prefix] using this

theorem find_none {s pat : Str} {pos : Nat}
    (h4 : ∀ q, pos ≤ q → q ≤ s.length → ¬ pat <+: s.drop q) : findOpt s pat pos = none := by
  unfold findOpt
  rw [List.find?_range'_eq_none]
  intro q h1 h2
  have := h4 q h1 (by omega)
  simpa [← List.isPrefixOf_iff_prefix] using this

theorem find_cases (s pat : Str) (pos : Nat) :
    (∃ p, findOpt s pat pos = some p ∧ pos ≤ p ∧ p ≤ s.length ∧ pat <+: s.drop p ∧
      ∀ q, pos ≤ q → q < p → ¬ pat <+: s.drop q) ∨
    (findOpt s pat pos = none ∧ ∀ q, pos ≤ q → q ≤ s.length → ¬ pat <+: s.drop q) := by
  by_cases h : ∃ p, pos ≤ p ∧ p ≤ s.length ∧ pat <+: s.drop p
  · left
    have ⟨p, hp⟩ := h
    -- least such p
    have : ∃ p, (pos ≤ p ∧ p ≤ s.length ∧ pat <+: s.drop p) ∧
        ∀ q, pos ≤ q → q < p → ¬ pat <+: s.drop q := by
      clear h
      induction p using Nat.strongRecOn with
      | _ p ih =>
        by_cases hq : ∃ q, pos ≤ q ∧ q < p ∧ pat <+: s.drop q
        · obtain ⟨q, h1, h2, h3⟩ := hq
          exact ih q h2 ⟨h1, by omega, h3⟩
        · exact ⟨p, hp, fun q h1 h2 h3 => hq ⟨q, h1, h2, h3⟩⟩
    obtain ⟨p, ⟨h1, h2, h3⟩, h4⟩ := this
    exact ⟨p, find_eq h1 h2 h3 h4, h1, h2, h3, h4⟩
  · right
    have h4 : ∀ q, pos ≤ q → q ≤ s.length → ¬ pat <+: s.drop q :=
      fun q h1 h2 h3 => h ⟨q, h1, h2, h3⟩
    exact ⟨find_none h4, h4⟩

/-! ### join -/

theorem joinLoop_eq (sep : Str) : ∀ (bs : List Str) (ret : Str),
    joinLoop sep false ret bs = ret ++ (bs.map (sep ++ ·)).flatten := by
  intro bs
  induction bs with
  | nil => intro ret; simp [joinLoop]
  | cons b bs ih => intro ret; simp [joinLoop, ih]

theorem join_nil (sep : Str) : join sep [] = [] := rfl

theorem join_cons (sep x : Str) (xs : List Str) :
    join sep (x :: xs) = x ++ (xs.map (sep ++ ·)).flatten := by
  simp [join, joinLoop, joinLoop_eq]

theorem join_one (sep x : Str) : join sep [x] = x := by simp [join_cons]

theorem join_cons_cons (sep x y : Str) (xs : List Str) :
    join sep (x :: y :: xs) = x ++ sep ++ join sep (y :: xs) := by
  simp [join_cons]

theorem join_intercalate (sep : Str) (xs : List Str) : join sep xs = List.intercalate sep xs := by
  induction xs with
  | nil => simp [join_nil, List.intercalate]
  | cons x xs ih =>
    cases xs with
    | nil => simp [join_one, List.intercalate]
    | cons y ys => rw [join_cons_cons, ih]; simp [List.intercalate, List.intersperse]

/-! ### split -/

theorem prefix_drop_append {sep y B : Str} {i : Nat} (hi : i ≤ y.length)
    (h : sep <+: (y ++ sep ++ B).drop i) : sep <+: (y ++ sep).drop i := by
  rw [List.drop_append_of_le_length (by simp; omega)] at h
  exact List.prefix_of_prefix_length_le h (List.prefix_append _ _) (by simp; omega)

theorem separable_unique {sep : Str} : ∀ {xs ys : List Str}, xs ≠ [] → ys ≠ [] →
    Separable sep xs → Separable sep ys → join sep xs = join sep ys → xs = ys := by
  intro xs
  induction xs with
  | nil => intro ys h; exact absurd rfl h
  | cons x xs ih =>
    intro ys _ hys cx cy he
    cases ys with
    | nil => exact absurd rfl hys
    | cons y ys =>
      cases xs with
      | nil =>
        cases ys with
        | nil => simp only [join_one] at he; rw [he]
        | cons y2 ys2 =>
          exfalso
          rw [join_one, join_cons_cons] at he
          apply cx
          rw [he]
          exact ⟨y, join sep (y2 :: ys2), rfl⟩
      | cons x2 xs2 =>
        cases ys with
        | nil =>
          exfalso
          rw [join_one, join_cons_cons] at he
          apply cy
          rw [← he]
          exact ⟨x, join sep (x2 :: xs2), rfl⟩
        | cons y2 ys2 =>
          rw [join_cons_cons, join_cons_cons] at he
          obtain ⟨cx1, cx2⟩ := cx
          obtain ⟨cy1, cy2⟩ := cy
          have hlen : x.length = y.length := by
            rcases Nat.lt_trichotomy x.length y.length with h | h | h
            · exfalso
              apply cy1 x.length h
              apply prefix_drop_append (B := join sep (y2 :: ys2)) (by omega)
              rw [← he]; simp
            · exact h
            · exfalso
              apply cx1 y.length h
              apply prefix_drop_append (B := join sep (x2 :: xs2)) (by omega)
              rw [he]; simp
          rw [List.append_assoc, List.append_assoc] at he
          obtain ⟨rfl, he2⟩ := List.append_inj he hlen
          have he3 := List.append_cancel_left he2
          rw [ih (by simp) (by simp) cx2 cy2 he3]

theorem splitLoop_spec {s sep : Str} (hsep : sep ≠ []) (hs : s.length < 2147483648) :
    ∀ (n start fuel : Nat) (bits : List Str), start ≤ s.length → s.length - start ≤ n → n < fuel →
    ∃ pieces, splitLoop s sep fuel start bits = .ok (bits ++ pieces) ∧ pieces ≠ [] ∧
      join sep pieces = s.drop start ∧ Separable sep pieces := by
  have hpos : 0 < sep.length := List.length_pos_iff.2 hsep
  intro n
  induction n using Nat.strongRecOn with
  | _ n ih =>
  intro start fuel bits hst hn hf
  cases fuel with
  | zero => omega
  | succ fuel =>
  have ht : toSize (start : Int) = start := toSize_nat _ (by omega)
  rcases find_cases s sep start with ⟨p, hp, h1, h2, h3, h4⟩ | ⟨hp, h4⟩
  · have h2' : p + sep.length ≤ s.length := by
      have := h3.length_le
      rw [List.length_drop] at this; omega
    have hi : int32 ((p : Nat) : Int) = p := int32_nat _ (by omega)
    have hi2 : int32 ((toSize (p : Int) : Int) + sep.length) = ((p + sep.length : Nat) : Int) :=
      int32_toSize_add h2' hs
    have hi3 : toSize ((p : Int) - start) = p - start := toSize_sub h1 h2 hs
    obtain ⟨ps, e1, e2, e3, e4⟩ := ih (s.length - (p + sep.length)) (by omega) (p + sep.length) fuel
      (bits ++ [(s.drop start).take (p - start)]) h2' (Nat.le_refl _) (by omega)
    have hx : s.drop start = (s.drop start).take (p - start) ++ sep ++ s.drop (p + sep.length) := by
      obtain ⟨t, ht⟩ := h3
      have e : s.drop p = sep ++ s.drop (p + sep.length) := by
        rw [← ht, ← List.drop_drop, ← ht, List.drop_left]
      rw [List.append_assoc, ← e]
      have := (List.take_append_drop (p - start) (s.drop start)).symm
      rwa [List.drop_drop, show start + (p - start) = p by omega] at this
    refine ⟨(s.drop start).take (p - start) :: ps, ?_, by simp, ?_, ?_⟩
    · simp only [splitLoop, ht, find, hp, Option.getD_some, hi, hi2, hi3]
      rw [if_neg (by omega)]
      simp only [ge_iff_le, Int.ofNat_le, h1, decide_true, Res.require_true, Res.bind_ok, substr, hst, if_true, e1]
      simp
    · obtain ⟨q, qs, rfl⟩ := List.exists_cons_of_ne_nil e2
      rw [join_cons_cons, e3, ← hx]
    · obtain ⟨q, qs, rfl⟩ := List.exists_cons_of_ne_nil e2
      refine ⟨?_, e4⟩
      intro i hil hpre
      have hil' : i < p - start := by
        rw [List.length_take] at hil; omega
      apply h4 (start + i) (by omega) (by omega)
      rw [← List.drop_drop, hx, List.drop_append_of_le_length (by simp [List.length_take] at hil ⊢; omega)]
      exact hpre.trans (List.prefix_append _ _)
  · refine ⟨[s.drop start], ?_, by simp, by simp [join_one], ?_⟩
    · simp only [splitLoop, ht, find, hp, Option.getD_none, int32_npos]
      rw [if_pos (by omega)]
      simp only [substr, hst, if_true, Res.bind_ok, Res.pure_eq]
      rw [toSize_sub hst (Nat.le_refl _) hs, List.take_of_length_le (by simp)]
    · intro ⟨a, b, hab⟩
      have : (s.drop start).drop a.length = sep ++ b := by rw [← hab]; simp
      rw [List.drop_drop] at this
      have hl : a.length ≤ (s.drop start).length := by rw [← hab]; simp
      rw [List.length_drop] at hl
      exact h4 (start + a.length) (by omega) (by omega) (by rw [this]; exact List.prefix_append _ _)

/-! ### CSV -/

/-- Doubling of quotes. -/
def doubleQ : Str → Str
  | [] => []
  | c :: cs => if c = 34 then 34 :: 34 :: doubleQ cs else c :: doubleQ cs

theorem doubleQ_append (a b : Str) : doubleQ (a ++ b) = doubleQ a ++ doubleQ b := by
  induction a with
  | nil => rfl
  | cons c cs ih => by_cases h : c = 34 <;> simp [doubleQ, h, ih]

theorem doubleQ_plain (a : Str) (h : (34 : Byte) ∉ a) : doubleQ a = a := by
  induction a with
  | nil => rfl
  | cons c cs ih =>
    simp at h
    simp [doubleQ, Ne.symm h.1, ih h.2]

theorem doubleQ_length (a : Str) : (doubleQ a).length ≤ 2 * a.length := by
  induction a with
  | nil => simp [doubleQ]
  | cons c cs ih => simp only [doubleQ]; split <;> simp <;> omega

theorem single_prefix_drop {l : Str} {q : Nat} {c : Byte} : [c] <+: l.drop q ↔ l[q]? = some c := by
  constructor
  · rintro ⟨t, ht⟩
    have : (l.drop q)[0]? = some c := by rw [← ht]; rfl
    simpa using this
  · intro h
    have h0 : (l.drop q)[0]? = some c := by simpa using h
    cases hd : l.drop q with
    | nil => rw [hd] at h0; simp at h0
    | cons a as => rw [hd] at h0; simp at h0; subst h0; exact ⟨as, rfl⟩

theorem first_split {c : Byte} : ∀ {l : Str}, c ∈ l → ∃ a b, l = a ++ c :: b ∧ c ∉ a := by
  intro l
  induction l with
  | nil => intro h; cases h
  | cons x xs ih =>
    intro h
    by_cases hx : x = c
    · exact ⟨[], xs, by simp [hx], by simp⟩
    · have : c ∈ xs := by
        rcases List.mem_cons.1 h with h | h
        · exact absurd h.symm hx
        · exact h
      obtain ⟨a, b, h1, h2⟩ := ih this
      exact ⟨x :: a, b, by simp [h1], by simp [h2, Ne.symm hx]⟩

theorem find_single {done a b : Str} {c : Byte} (h : c ∉ a) :
    findOpt (done ++ (a ++ c :: b)) [c] done.length = some (done.length + a.length) := by
  apply find_eq (by omega) (by simp)
  · rw [single_prefix_drop, List.getElem?_append_right (by omega)]
    simp
  · intro q h1 h2 h3
    rw [single_prefix_drop, List.getElem?_append_right (by omega),
      List.getElem?_append_left (by omega)] at h3
    exact h (List.mem_of_getElem? h3)

theorem find_single_none {done todo : Str} {c : Byte} (h : c ∉ todo) :
    findOpt (done ++ todo) [c] done.length = none := by
  apply find_none
  intro q h1 _ h3
  rw [single_prefix_drop, List.getElem?_append_right (by omega)] at h3
  exact h (List.mem_of_getElem? h3)

theorem csvLoop_spec : ∀ (n : Nat) (done todo : Str) (fuel : Nat), todo.length ≤ n → n < fuel →
    done.length + 2 * todo.length < 2147483648 →
    csvLoop fuel (done ++ todo) (done.length : Nat) = .ok (done ++ doubleQ todo) := by
  intro n
  induction n using Nat.strongRecOn with
  | _ n ih =>
  intro done todo fuel hn hf hl
  cases fuel with
  | zero => omega
  | succ fuel =>
  have ht : toSize (done.length : Int) = done.length := toSize_nat _ (by omega)
  by_cases hq : (34 : Byte) ∈ todo
  · obtain ⟨a, b, rfl, ha⟩ := first_split hq
    simp only [List.length_append, List.length_cons] at hn hl
    have hi : int32 ((done.length + a.length : Nat) : Int) = ((done.length + a.length : Nat) : Int) :=
      int32_nat _ (by omega)
    have ht2 : toSize ((done.length + a.length : Nat) : Int) = done.length + a.length := toSize_nat _ (by omega)
    have hi2 : int32 (((done.length + a.length : Nat) : Int) + 2)
        = (((done ++ a ++ [34, 34]).length : Nat) : Int) := by
      rw [show ((done.length + a.length : Nat) : Int) + 2
        = (((done ++ a ++ [34, 34]).length : Nat) : Int) by simp; omega, int32_nat _ (by simp; omega)]
    have hins : insert (done ++ (a ++ 34 :: b)) (done.length + a.length) [34]
        = .ok (done ++ a ++ [34, 34] ++ b) := by
      unfold insert
      rw [if_pos (by simp)]
      have e1 : (done ++ (a ++ 34 :: b)).take (done.length + a.length) = done ++ a := by
        rw [← List.append_assoc, show done.length + a.length = (done ++ a).length by simp,
          List.take_left]
      have e2 : (done ++ (a ++ 34 :: b)).drop (done.length + a.length) = 34 :: b := by
        rw [← List.append_assoc, show done.length + a.length = (done ++ a).length by simp,
          List.drop_left]
      rw [e1, e2]; simp
    simp only [csvLoop, ht, find, find_single ha, Option.getD_some, hi]
    rw [if_pos (by omega), ht2, hins]
    simp only [Res.bind_ok, hi2]
    rw [ih b.length (by omega) _ b fuel (Nat.le_refl _) (by omega) (by simp; omega)]
    simp [doubleQ_append, doubleQ, doubleQ_plain a ha]
  · simp only [csvLoop, ht, find, find_single_none hq, Option.getD_none, int32_npos]
    rw [if_neg (by omega), doubleQ_plain _ hq]

theorem csvLoop_one (s : Str) (hs : s.length < 1073741823) :
    csvLoop ((34 :: s : Str).length + 1) (34 :: s) 1 = .ok (34 :: doubleQ s) := by
  rw [List.length_cons]
  have := csvLoop_spec s.length [34] s (s.length + 1 + 1) (Nat.le_refl _) (by omega) (by simp; omega)
  simp only [List.singleton_append, List.length_singleton] at this
  exact this

theorem int32_nat_nonneg (n : Nat) (h : n < 1073741823) : int32 (n : Int) ≥ 0 := by
  rw [int32_nat _ (by omega)]; omega

theorem int32_npos_neg : ¬ int32 (npos : Nat) ≥ 0 := by decide

theorem toCSVform_eq (s : Str) (hs : s.length < 1073741823) :
    toCSVform s = .ok (if (44 : Byte) ∈ s then 34 :: (doubleQ s ++ [34]) else s) := by
  unfold toCSVform find
  by_cases hc : (44 : Byte) ∈ s
  · obtain ⟨a, b, hab, ha⟩ := first_split hc
    have hf : findOpt s [44] 0 = some a.length := by
      have := find_single (done := []) (b := b) ha
      simpa [← hab] using this
    have hal : a.length ≤ s.length := by rw [hab]; simp
    have hal2 := int32_nat_nonneg a.length (Nat.lt_of_le_of_lt hal hs)
    rw [hf, Option.getD_some, if_pos hal2, if_pos hc]
    have hins : insert s 0 [34] = .ok (34 :: s) := by simp [insert]
    rw [hins]
    simp only [Res.bind_ok, csvLoop_one s hs, Res.pure_eq, List.cons_append]
  · have hf : findOpt s [44] 0 = none := by
      have := find_single_none (done := []) hc
      simpa using this
    rw [hf, Option.getD_none, if_neg int32_npos_neg, if_neg hc]

theorem readQuoted_double (s rest : Str) (hr : atEnd rest = true) :
    readQuoted (doubleQ s ++ 34 :: rest) = some (s, rest) := by
  induction s with
  | nil =>
    cases rest with
    | nil => simp [doubleQ, readQuoted]
    | cons d ds =>
      have : d ≠ 34 := by
        rintro rfl; revert hr; simp [atEnd]
      simp only [doubleQ, List.nil_append, readQuoted, if_true, this, if_false]
      rw [if_pos hr]
  | cons c cs ih =>
    by_cases h : c = 34
    · subst h
      simp [doubleQ, readQuoted, ih]
    · simp only [doubleQ, h, if_false, List.cons_append]
      rw [readQuoted.eq_def]
      simp [h, ih]

theorem readPlain_plain (s rest : Str) (hr : atEnd rest = true)
    (h : ∀ c ∈ s, c ≠ 34 ∧ c ≠ 44 ∧ c ≠ 10 ∧ c ≠ 13) :
    readPlain (s ++ rest) = some (s, rest) := by
  induction s with
  | nil =>
    cases rest with
    | nil => rfl
    | cons d ds => simp only [List.nil_append, readPlain]; rw [if_pos hr]
  | cons c cs ih =>
    have hc := h c (by simp)
    have : atEnd (c :: (cs ++ rest)) = false := by simp [atEnd, hc]
    simp only [List.cons_append, readPlain, this]
    simp [hc.1, ih (fun c hc => h c (by simp [hc]))]

theorem readPlain_chars {s f r : Str} (h : readPlain s = some (f, r)) :
    ∀ c ∈ f, c ≠ 34 ∧ c ≠ 10 ∧ c ≠ 13 := by
  induction s generalizing f r with
  | nil => simp [readPlain] at h; obtain ⟨rfl, rfl⟩ := h; simp
  | cons c cs ih =>
    simp only [readPlain] at h
    split at h
    · simp at h; obtain ⟨rfl, rfl⟩ := h; simp
    · rename_i hne
      split at h
      · cases h
      · rename_i hq
        simp only [Option.map_eq_some_iff, Prod.exists, Prod.mk.injEq] at h
        obtain ⟨f', r', h1, rfl, rfl⟩ := h
        intro x hx
        rcases List.mem_cons.1 hx with rfl | hx
        · simp [atEnd] at hne; simp [hq, hne]
        · exact ih h1 x hx

theorem readQuoted_length : ∀ (n : Nat) {s f r : Str}, s.length ≤ n → readQuoted s = some (f, r) →
    f.length + r.length + 1 ≤ s.length := by
  intro n
  induction n with
  | zero =>
    intro s f r hs h
    have : s = [] := List.length_eq_zero_iff.1 (by omega)
    subst this; simp [readQuoted] at h
  | succ n ih =>
  intro s f r hs h
  match s with
  | [] => simp [readQuoted] at h
  | c :: cs =>
    simp only [List.length_cons] at hs
    by_cases hc : c = 34
    · match cs with
      | [] => simp [readQuoted, hc] at h; obtain ⟨rfl, rfl⟩ := h; simp
      | d :: ds =>
        simp only [readQuoted, hc, if_true] at h
        split at h
        · simp only [Option.map_eq_some_iff, Prod.exists, Prod.mk.injEq] at h
          obtain ⟨f', r', h1, rfl, rfl⟩ := h
          simp only [List.length_cons] at hs
          have := ih (by omega) h1
          simp; omega
        · split at h
          · simp at h; obtain ⟨rfl, rfl⟩ := h; simp
          · cases h
    · rw [readQuoted.eq_def] at h
      simp only [hc, if_false] at h
      simp only [Option.map_eq_some_iff, Prod.exists, Prod.mk.injEq] at h
      obtain ⟨f', r', h1, rfl, rfl⟩ := h
      have := ih (by omega) h1
      simp; omega

end Verif.Str
