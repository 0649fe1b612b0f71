import Verif.Wrap.Model
import Verif.Wrap.Spec
import Verif.Str.Model

namespace Verif.Wrap
open Verif.Str Verif.Wrap.Spec

theorem scan_spec (s : Str) (lo : Nat) : ∀ p, lo ≤ p → p < s.length →
    ∃ q, scan s lo p = .ok q ∧ lo ≤ q ∧ q ≤ p ∧
      (∀ i, q < i → i ≤ p → s[i]? ≠ some 32) ∧ (lo < q → s[q]? = some 32) := by
  intro p
  induction p with
  | zero =>
    intro h1 h2
    exact ⟨0, rfl, by omega, by omega, fun i _ _ => by omega, fun _ => by omega⟩
  | succ p ih =>
    intro h1 h2
    unfold scan
    by_cases hlo : p + 1 > lo
    · rw [if_pos hlo]
      have hc : charAt s (p + 1) = .ok s[p + 1] := by
        unfold charAt; rw [List.getElem?_eq_getElem h2]
      simp only [hc, Res.bind_ok, Res.pure_eq]
      by_cases h : s[p + 1] = sp
      · rw [if_pos h]
        refine ⟨p + 1, rfl, by omega, by omega, fun i _ _ => by omega, fun _ => ?_⟩
        rw [List.getElem?_eq_getElem h2, h]; rfl
      · rw [if_neg h]
        obtain ⟨q, e, a, b, c, d⟩ := ih (by omega) (by omega)
        refine ⟨q, e, a, by omega, fun i hi hi' => ?_, d⟩
        rcases Nat.lt_or_ge i (p + 1) with hlt | hge
        · exact c i hi (by omega)
        · have : i = p + 1 := by omega
          subst this
          rw [List.getElem?_eq_getElem h2]
          intro hh
          exact h (Option.some.inj hh)
    · rw [if_neg hlo]
      exact ⟨p + 1, rfl, by omega, by omega, fun i _ _ => by omega, fun hh => by omega⟩

theorem u32_id {x : Nat} (h : x < 2 ^ 32) : u32 x = x := Nat.mod_eq_of_lt h

theorem exists_split (c : Byte) : ∀ l : Str, c ∈ l → ∃ a b, l = a ++ c :: b ∧ c ∉ a := by
  intro l
  induction l with
  | nil => intro h; cases h
  | cons x t ih =>
    intro h
    by_cases hx : x = c
    · exact ⟨[], t, by rw [hx]; rfl, by simp⟩
    · have : c ∈ t := by
        rcases List.mem_cons.1 h with h | h
        · exact absurd h.symm hx
        · exact h
      obtain ⟨a, b, e, hn⟩ := ih this
      refine ⟨x :: a, b, by rw [e]; rfl, ?_⟩
      intro hh
      rcases List.mem_cons.1 hh with hh | hh
      · exact hx hh.symm
      · exact hn hh

theorem find_none (d rest : Str) (h : (10 : Byte) ∉ rest) :
    Str.find (d ++ rest) [nl] d.length = npos := by
  unfold Str.find findOpt
  have : (List.range' d.length ((d ++ rest).length + 1 - d.length)).find?
      (fun p => [nl].isPrefixOf ((d ++ rest).drop p)) = none := by
    rw [List.find?_eq_none]
    intro p hp hpre
    rw [List.mem_range'_1] at hp
    rw [List.isPrefixOf_iff_prefix] at hpre
    obtain ⟨t, ht⟩ := hpre
    have : (10 : Byte) ∈ (d ++ rest).drop p := by rw [← ht]; simp [nl]
    have e : (d ++ rest).drop p = rest.drop (p - d.length) := by
      rw [List.drop_append, List.drop_eq_nil_of_le (by omega), List.nil_append]
    rw [e] at this
    exact h (List.mem_of_mem_drop this)
  rw [this]; rfl

theorem find_some (d a b : Str) (h : (10 : Byte) ∉ a) :
    Str.find (d ++ (a ++ 10 :: b)) [nl] d.length = d.length + a.length := by
  unfold Str.find findOpt
  have : (List.range' d.length ((d ++ (a ++ 10 :: b)).length + 1 - d.length)).find?
      (fun p => [nl].isPrefixOf ((d ++ (a ++ 10 :: b)).drop p)) = some (d.length + a.length) := by
    rw [List.find?_range'_eq_some]
    refine ⟨?_, ?_, ?_⟩
    · rw [List.isPrefixOf_iff_prefix]
      refine ⟨b, ?_⟩
      rw [← List.append_assoc, ← List.length_append, List.drop_left]; rfl
    · rw [List.mem_range'_1]; simp only [List.length_append, List.length_cons]; omega
    · intro i h1 h2
      rw [Bool.not_eq_true']
      apply Bool.eq_false_iff.2
      intro hpre
      rw [List.isPrefixOf_iff_prefix] at hpre
      obtain ⟨t, ht⟩ := hpre
      have e : (d ++ (a ++ 10 :: b)).drop i = a.drop (i - d.length) ++ 10 :: b := by
        rw [List.drop_append, List.drop_eq_nil_of_le (by omega), List.nil_append,
          List.drop_append_of_le_length (by omega)]
      rw [e] at ht
      have hne : a.drop (i - d.length) ≠ [] := by
        intro hn
        have := congrArg List.length hn
        rw [List.length_drop] at this
        simp at this; omega
      cases hx : a.drop (i - d.length) with
      | nil => exact hne hx
      | cons x y =>
        rw [hx] at ht
        simp only [List.cons_append, List.nil_append, nl] at ht
        have : (10 : Byte) ∈ a.drop (i - d.length) := by
          rw [hx]; have := (List.cons.inj ht).1; rw [this]; simp
        exact h (List.mem_of_mem_drop this)
  rw [this]; rfl

theorem toSize_sub (a b : Nat) (h : b ≤ a) (h2 : a < 2 ^ 33) :
    toSize ((a : Int) - b) = a - b := by
  unfold toSize
  have : ((a : Int) - b) % (2 ^ 64 : Int) = (a : Int) - b := by
    apply Int.emod_eq_of_lt <;> omega
  rw [this]; omega

theorem drop_set_len (d x y : Str) (c c' : Byte) :
    (d ++ (x ++ c :: y)).set (d.length + x.length) c' = d ++ (x ++ c' :: y) := by
  rw [List.set_append_right _ _ (by omega), Nat.add_sub_cancel_left,
    List.set_append_right _ _ (by omega), Nat.sub_self]
  rfl

theorem getElem?_mid (d x y : Str) (c : Byte) :
    (d ++ (x ++ c :: y))[d.length + x.length]? = some c := by
  rw [List.getElem?_append_right (by omega), Nat.add_sub_cancel_left,
    List.getElem?_append_right (by omega), Nat.sub_self]
  rfl

/-- What making a line break does. -/
theorem breakLine_spec (w : Nat) (d rest : Str) (hw : 10 ≤ w)
    (hlong : w < rest.length) (hno : (10 : Byte) ∉ rest.take (w + 1))
    (hb : 11 * rest.length + 10 * d.length < 10 * 2 ^ 32) :
    (∃ a b, rest = a ++ 32 :: b ∧ (10 : Byte) ∉ a ∧ w / 2 ≤ a.length ∧ a.length ≤ w ∧
      (∀ c ∈ b.take (w - a.length), c ≠ 10 ∧ c ≠ 32) ∧
      breakLine w (d ++ rest) d.length = .ok (d ++ (a ++ 10 :: b), d.length + a.length + 1)) ∨
    (∃ a b, rest = a ++ b ∧ (10 : Byte) ∉ a ∧ a.length = w ∧ b ≠ [] ∧ b.head? ≠ some 10 ∧
      b.head? ≠ some 32 ∧ (32 : Byte) ∉ a.drop (w / 2) ∧
      breakLine w (d ++ rest) d.length = .ok (d ++ (a ++ 10 :: b), d.length + a.length + 1)) := by
  have hl : (d ++ rest).length = d.length + rest.length := List.length_append
  have e1 : u32 (d.length + w) = d.length + w := u32_id (by omega)
  have e2 : u32 (d.length + w / 2) = d.length + w / 2 := u32_id (by omega)
  have e3 : u32 (d.length + w + 1) = d.length + w + 1 := u32_id (by omega)
  obtain ⟨q, hq, h1, h2, h3, h4⟩ :=
    scan_spec (d ++ rest) (d.length + w / 2) (d.length + w) (by omega) (by omega)
  obtain ⟨k, rfl⟩ : ∃ k, q = d.length + k := ⟨q - d.length, by omega⟩
  have hk : k < rest.length := by omega
  have hsplit : rest = rest.take k ++ rest[k] :: rest.drop (k + 1) := by
    rw [List.getElem_cons_drop, List.take_append_drop]
  have hlk : (rest.take k).length = k := by rw [List.length_take]; omega
  have hget : ∀ i, (d ++ rest)[d.length + i]? = rest[i]? := by
    intro i
    rw [List.getElem?_append_right (by omega), Nat.add_sub_cancel_left]
  have hc : charAt (d ++ rest) (d.length + k) = .ok rest[k] := by
    unfold charAt; rw [hget, List.getElem?_eq_getElem hk]
  have hnotake : ∀ i (hi : i ≤ w), rest[i]? ≠ some 10 := by
    intro i hi hh
    apply hno
    rw [List.mem_iff_getElem?]
    exact ⟨i, by rw [List.getElem?_take, if_pos (by omega), hh]⟩
  have hnoa : ∀ j, j ≤ w + 1 → (10 : Byte) ∉ rest.take j := by
    intro j hj hm
    rw [List.mem_iff_getElem?] at hm
    obtain ⟨i, hi⟩ := hm
    rw [List.getElem?_take] at hi
    by_cases hij : i < j
    · rw [if_pos hij] at hi; exact hnotake i (by omega) hi
    · rw [if_neg hij] at hi; exact absurd hi (by simp)
  have hbr : breakLine w (d ++ rest) d.length =
      if rest[k] = sp then .ok ((d ++ rest).set (d.length + k) nl, u32 (d.length + k + 1))
      else (Str.insert (d ++ rest) (d.length + w) [nl]).bind
        (fun s' => .ok (s', d.length + w + 1)) := by
    unfold breakLine
    rw [e1, e2, e3, hq]
    have c1 : decide (d.length + w < (d ++ rest).length) = true := by
      apply decide_eq_true; omega
    have c2 : (decide (d.length + k > d.length) && decide (d.length + k < (d ++ rest).length))
        = true := by
      rw [Bool.and_eq_true]; exact ⟨by apply decide_eq_true; omega, by apply decide_eq_true; omega⟩
    rw [c1]
    simp only [Res.require_true, Res.bind_ok]
    rw [c2, hc]
    simp only [Res.require_true, Res.bind_ok, Res.pure_eq]
    rfl
  by_cases hsp : rest[k] = sp
  · left
    refine ⟨rest.take k, rest.drop (k + 1), ?_, hnoa k (by omega), by omega, by omega, ?_, ?_⟩
    · have h := hsplit
      rw [hsp] at h
      exact h
    · intro c hcm
      rw [hlk] at hcm
      rw [List.mem_iff_getElem?] at hcm
      obtain ⟨i, hi⟩ := hcm
      rw [List.getElem?_take] at hi
      by_cases hij : i < w - k
      · rw [if_pos hij, List.getElem?_drop] at hi
        refine ⟨?_, ?_⟩
        · rintro rfl; exact hnotake _ (by omega) hi
        · rintro rfl
          have := h3 (d.length + (k + 1 + i)) (by omega) (by omega)
          rw [hget] at this
          exact this hi
      · rw [if_neg hij] at hi; exact absurd hi (by simp)
    · rw [hbr, if_pos hsp, u32_id (by omega), hlk]
      congr 2
      have h := drop_set_len d (rest.take k) (rest.drop (k + 1)) rest[k] nl
      rw [hlk, ← hsplit] at h
      exact h
  · right
    have hkw : k = w / 2 := by
      apply Classical.byContradiction
      intro hne
      have := h4 (by omega)
      rw [hget, List.getElem?_eq_getElem hk] at this
      exact hsp (Option.some.inj this)
    have hnosp : ∀ i, w / 2 ≤ i → i ≤ w → rest[i]? ≠ some 32 := by
      intro i hi hi' hh
      rcases Nat.lt_or_ge k i with hlt | hge
      · have := h3 (d.length + i) (by omega) (by omega)
        rw [hget] at this
        exact this hh
      · have : i = k := by omega
        subst this
        rw [List.getElem?_eq_getElem hk] at hh
        exact hsp (Option.some.inj hh)
    have hlw : (rest.take w).length = w := by rw [List.length_take]; omega
    refine ⟨rest.take w, rest.drop w, (List.take_append_drop _ _).symm, hnoa w (by omega), hlw,
      ?_, ?_, ?_, ?_, ?_⟩
    · intro hn
      have := congrArg List.length hn
      rw [List.length_drop] at this
      simp at this; omega
    · rw [List.head?_drop]; exact hnotake w (by omega)
    · rw [List.head?_drop]; exact hnosp w (by omega) (by omega)
    · intro hm
      rw [List.mem_iff_getElem?] at hm
      obtain ⟨i, hi⟩ := hm
      rw [List.getElem?_drop, List.getElem?_take] at hi
      by_cases hij : w / 2 + i < w
      · rw [if_pos hij] at hi; exact hnosp _ (by omega) (by omega) hi
      · rw [if_neg hij] at hi; exact absurd hi (by simp)
    · rw [hbr, if_neg hsp]
      unfold Str.insert
      rw [if_pos (by omega), hlw]
      show Res.ok _ = _
      congr 2
      rw [List.take_append, List.drop_append, List.take_of_length_le (by omega),
        List.drop_eq_nil_of_le (by omega), Nat.add_sub_cancel_left]
      simp [nl]

theorem loop_spec (w : Nat) (hw : 10 ≤ w) : ∀ (n : Nat) (d rest : Str) (fuel : Nat),
    rest.length ≤ n → rest.length < fuel →
    11 * rest.length + 10 * d.length < 10 * 2 ^ 32 →
    ∃ out, loop w fuel (d ++ rest) d.length = .ok (d ++ out) ∧ Broken w rest out := by
  intro n
  induction n with
  | zero =>
    intro d rest fuel hn hf hb
    have : rest = [] := List.length_eq_zero_iff.1 (by omega)
    subst this
    obtain ⟨f, rfl⟩ : ∃ f, fuel = f + 1 := ⟨fuel - 1, by omega⟩
    refine ⟨[], ?_, .fit (by simp) (by simp)⟩
    unfold loop body
    rw [find_none d [] (by simp), if_pos rfl, toSize_sub _ _ (by simp) (by simp at *; omega),
      if_pos (by simp)]
    rfl
  | succ n ih =>
    intro d rest fuel hn hf hb
    obtain ⟨f, rfl⟩ : ∃ f, fuel = f + 1 := ⟨fuel - 1, by omega⟩
    have hlen : (d ++ rest).length = d.length + rest.length := List.length_append
    -- going on after a break at `done ++ (x ++ 10 :: b)`
    have go : ∀ (a b : Str), b.length ≤ n → b.length < f →
        11 * b.length + 10 * (d.length + a.length + 1) < 10 * 2 ^ 32 →
        ∃ out, (if d.length + a.length + 1 < (d ++ (a ++ 10 :: b)).length
            then loop w f (d ++ (a ++ 10 :: b)) (d.length + a.length + 1)
            else Res.ok (d ++ (a ++ 10 :: b))) = .ok (d ++ (a ++ 10 :: out)) ∧ Broken w b out := by
      intro a b h1 h2 h3
      have e : d ++ (a ++ 10 :: b) = (d ++ (a ++ [10])) ++ b := by simp
      have el : (d ++ (a ++ [10])).length = d.length + a.length + 1 := by
        simp [Nat.add_assoc]
      by_cases hb' : b = []
      · subst hb'
        refine ⟨[], ?_, .fit (by simp) (by simp)⟩
        rw [if_neg (by simp [Nat.add_assoc])]
      · have : 0 < b.length := List.length_pos_iff.2 hb'
        rw [if_pos (by rw [e, List.length_append, el]; omega)]
        obtain ⟨out, ho, hB⟩ := ih (d ++ (a ++ [10])) b f h1 h2 (by rw [el]; exact h3)
        rw [el, ← e] at ho
        exact ⟨out, by rw [ho]; simp, hB⟩
    -- the line does not fit
    have brk : w < rest.length → (10 : Byte) ∉ rest.take (w + 1) →
        body w (d ++ rest) d.length = (breakLine w (d ++ rest) d.length).map some →
        ∃ out, loop w (f + 1) (d ++ rest) d.length = .ok (d ++ out) ∧ Broken w rest out := by
      intro hlong hno hbody
      rcases breakLine_spec w d rest hw hlong hno hb with
        ⟨a, b, hr, h1, h2, h3, h4, hbl⟩ | ⟨a, b, hr, h1, h2, h3, h4, h5, h6, hbl⟩
      · have hrl : rest.length = a.length + (b.length + 1) := by rw [hr]; simp
        obtain ⟨out, ho, hB⟩ := go a b (by omega) (by omega) (by omega)
        refine ⟨a ++ 10 :: out, ?_, ?_⟩
        · unfold loop
          rw [hbody, hbl]
          exact ho
        · rw [hr]
          exact .atBlank h1 h2 h3 (by rw [← hr]; exact hlong) h4 hB
      · have hrl : rest.length = a.length + b.length := by rw [hr]; simp
        have : 0 < b.length := List.length_pos_iff.2 h3
        obtain ⟨out, ho, hB⟩ := go a b (by omega) (by omega) (by omega)
        refine ⟨a ++ 10 :: out, ?_, ?_⟩
        · unfold loop
          rw [hbody, hbl]
          exact ho
        · rw [hr]
          exact .force h1 h2 h3 h4 h5 h6 hB
    by_cases hm : (10 : Byte) ∈ rest
    · obtain ⟨a, b, hr, hna⟩ := exists_split 10 rest hm
      have hrl : rest.length = a.length + (b.length + 1) := by rw [hr]; simp
      have hfind : Str.find (d ++ rest) [nl] d.length = d.length + a.length := by
        rw [hr]; exact find_some d a b hna
      have hts : toSize (((d.length + a.length : Nat) : Int) - (d.length : Nat)) = a.length := by
        rw [toSize_sub _ _ (by omega) (by omega)]; omega
      have hnp : d.length + a.length ≠ npos := by
        have : npos = 2 ^ 64 - 1 := rfl
        omega
      by_cases hfit : a.length ≤ w
      · obtain ⟨out, ho, hB⟩ := go a b (by omega) (by omega) (by omega)
        refine ⟨a ++ 10 :: out, ?_, by rw [hr]; exact .keep hna hfit hB⟩
        unfold loop body
        simp only [hfind]
        rw [if_neg hnp, hts, if_neg (by omega), u32_id (by omega)]
        simp only [Res.pure_eq, Res.bind_ok]
        rw [hr]
        exact ho
      · refine brk (by omega) ?_ ?_
        · intro hh
          apply hna
          rw [hr, List.take_append_of_le_length (by omega)] at hh
          exact List.mem_of_mem_take hh
        · unfold body
          simp only [hfind]
          rw [if_neg hnp, hts, if_pos (by omega)]
    · have hfind := find_none d rest hm
      have hts : toSize (((d ++ rest).length : Int) - (d.length : Nat)) = rest.length := by
        rw [toSize_sub _ _ (by omega) (by omega)]; omega
      by_cases hfit : rest.length ≤ w
      · refine ⟨rest, ?_, .fit hm hfit⟩
        unfold loop body
        simp only [hfind]
        rw [if_pos trivial, hts, if_pos hfit]
        rfl
      · refine brk (by omega) (fun hh => hm (List.mem_of_mem_take hh)) ?_
        unfold body
        simp only [hfind]
        rw [if_pos trivial, hts, if_neg hfit]

theorem lines_nl (b : Str) : lines (10 :: b) = [] :: lines b := by
  rw [lines]; simp

theorem lines_ne (t : Str) : lines t ≠ [] := by
  induction t with
  | nil => simp [lines]
  | cons c t ih =>
    rw [lines]
    split
    · simp
    · split <;> simp

theorem lines_append (a b : Str) (h : (10 : Byte) ∉ a) : lines (a ++ 10 :: b) = a :: lines b := by
  induction a with
  | nil => exact lines_nl b
  | cons c a ih =>
    rw [List.mem_cons, not_or] at h
    rw [List.cons_append, lines, if_neg (Ne.symm h.1), ih h.2]

theorem lines_single (a : Str) (h : (10 : Byte) ∉ a) : lines a = [a] := by
  induction a with
  | nil => rfl
  | cons c a ih =>
    rw [List.mem_cons, not_or] at h
    rw [lines, if_neg (Ne.symm h.1), ih h.2]

theorem sameText_refl (a : Str) : SameText a a := by
  induction a with
  | nil => exact .nil
  | cons c a ih => exact .same c ih

theorem sameText_append (a : Str) {b c : Str} (h : SameText b c) : SameText (a ++ b) (a ++ c) := by
  induction a with
  | nil => exact h
  | cons x a ih => exact .same x ih

theorem broken_lines {w : Nat} {a b : Str} (h : Broken w a b) :
    ∀ l ∈ lines b, l.length ≤ w := by
  induction h with
  | fit h1 h2 => intro l hl; rw [lines_single _ h1] at hl; simp at hl; rw [hl]; exact h2
  | keep h1 h2 _ ih =>
    intro l hl
    rw [lines_append _ _ h1] at hl
    rcases List.mem_cons.1 hl with rfl | hl
    · exact h2
    · exact ih l hl
  | atBlank h1 _ h2 _ _ _ ih =>
    intro l hl
    rw [lines_append _ _ h1] at hl
    rcases List.mem_cons.1 hl with rfl | hl
    · exact h2
    · exact ih l hl
  | force h1 h2 _ _ _ _ _ ih =>
    intro l hl
    rw [lines_append _ _ h1] at hl
    rcases List.mem_cons.1 hl with rfl | hl
    · omega
    · exact ih l hl

theorem broken_same {w : Nat} {a b : Str} (h : Broken w a b) : SameText a b := by
  induction h with
  | fit h1 h2 => exact sameText_refl _
  | keep _ _ _ ih => exact sameText_append _ (.same _ ih)
  | atBlank _ _ _ _ _ _ ih => exact sameText_append _ (.blank ih)
  | force _ _ _ _ _ _ _ ih => exact sameText_append _ (.ins ih)

theorem lines_head_long (a b : Str) (n : Nat) (h : (10 : Byte) ∉ (a ++ b).take n)
    (hn : n ≤ (a ++ b).length) : ∃ l ∈ lines (a ++ b), n ≤ l.length := by
  generalize a ++ b = s at *
  by_cases hm : (10 : Byte) ∈ s
  · obtain ⟨x, y, e, hx⟩ := exists_split 10 s hm
    refine ⟨x, by rw [e, lines_append _ _ hx]; simp, ?_⟩
    apply Classical.byContradiction
    intro hlt
    apply h
    rw [e, List.take_append]
    have : 0 < n - x.length := by omega
    rw [List.mem_append]
    right
    obtain ⟨k, hk⟩ : ∃ k, n - x.length = k + 1 := ⟨n - x.length - 1, by omega⟩
    rw [hk]; simp
  · exact ⟨s, by rw [lines_single _ hm]; simp, hn⟩

/-- A text whose lines all fit is left alone. -/
theorem broken_fits {w : Nat} {a b : Str} (h : Broken w a b)
    (hl : ∀ l ∈ lines a, l.length ≤ w) : b = a := by
  induction h with
  | fit _ _ => rfl
  | keep h1 h2 _ ih =>
    rw [ih (fun l hm => hl l (by rw [lines_append _ _ h1]; exact List.mem_cons_of_mem _ hm))]
  | @atBlank a b b' h1 h2 h3 h4 h5 _ _ =>
    exfalso
    have hno : (10 : Byte) ∉ (a ++ 32 :: b).take (w + 1) := by
      rw [List.take_append, List.mem_append, List.take_of_length_le (by omega)]
      rintro (hh | hh)
      · exact h1 hh
      · obtain ⟨k, hk⟩ : ∃ k, w + 1 - a.length = k + 1 := ⟨w - a.length, by omega⟩
        rw [hk, List.take_succ_cons] at hh
        rcases List.mem_cons.1 hh with hh | hh
        · exact absurd hh (by decide)
        · have : k = w - a.length := by omega
          rw [this] at hh
          exact (h5 _ hh).1 rfl
    obtain ⟨l, hm, hlen⟩ := lines_head_long a (32 :: b) (w + 1) hno h4
    have := hl l hm
    omega
  | @force a b b' h1 h2 h3 h4 h5 h6 _ _ =>
    exfalso
    have : 0 < b.length := List.length_pos_iff.2 h3
    have hno : (10 : Byte) ∉ (a ++ b).take (w + 1) := by
      rw [List.take_append, List.mem_append, List.take_of_length_le (by omega)]
      rintro (hh | hh)
      · exact h1 hh
      · have e : w + 1 - a.length = 1 := by omega
        rw [e] at hh
        cases b with
        | nil => simp at hh
        | cons x y => simp at hh h4; exact h4 hh.symm
    obtain ⟨l, hm, hlen⟩ := lines_head_long a b (w + 1) hno (by rw [List.length_append]; omega)
    have := hl l hm
    omega

end Verif.Wrap
