import Verif.Str.Lemmas

/-! # String utilities: property theorems (C16-C20, C59) -/

namespace Verif.Str

/-! ### C16 split / join -/

/-- **C16a.** For every string below 2 GiB and every non-empty separator, `split` succeeds,
and joining its pieces gives the string back. It appends to the vector it is given. -/
theorem split_join (s sep : Str) (bits : List Str) (hsep : sep ≠ []) (hs : s.length < 2147483648) :
    ∃ pieces, split s sep bits = .ok (bits ++ pieces) ∧ pieces ≠ [] ∧ join sep pieces = s := by
  obtain ⟨ps, h1, h2, h3, _⟩ := splitLoop_spec hsep hs s.length 0 (s.length + 1) bits (by omega)
    (by omega) (by omega)
  refine ⟨ps, ?_, h2, by simpa using h3⟩
  have hpos : sep.length > 0 := List.length_pos_iff.2 hsep
  simp only [split, hpos, decide_true, Res.require_true, Res.bind_ok]
  exact h1

/-- The pieces can always be told apart again. -/
theorem split_separable (s sep : Str) (hsep : sep ≠ []) (hs : s.length < 2147483648) :
    ∃ pieces, split s sep [] = .ok pieces ∧ Separable sep pieces := by
  obtain ⟨ps, h1, h2, h3, h4⟩ := splitLoop_spec hsep hs s.length 0 (s.length + 1) [] (by omega)
    (by omega) (by omega)
  refine ⟨ps, ?_, h4⟩
  have hpos : sep.length > 0 := List.length_pos_iff.2 hsep
  simp only [split, hpos, decide_true, Res.require_true, Res.bind_ok]
  exact h1

/-- **C16b.** Splitting a joined list returns the list exactly when it is non-empty and the
separator does not also occur somewhere inside or across the parts. -/
theorem join_split_iff (parts : List Str) (sep : Str) (hsep : sep ≠ [])
    (hs : (join sep parts).length < 2147483648) :
    split (join sep parts) sep [] = .ok parts ↔ parts ≠ [] ∧ Separable sep parts := by
  obtain ⟨ps, h1, h2, h3⟩ := split_join (join sep parts) sep [] hsep hs
  obtain ⟨ps', h1', h4⟩ := split_separable (join sep parts) sep hsep hs
  rw [List.nil_append] at h1
  have hpp : ps' = ps := by rw [h1] at h1'; injection h1' with h; exact h.symm
  subst hpp
  rw [h1]
  constructor
  · intro h; injection h with h; subst h; exact ⟨h2, h4⟩
  · rintro ⟨hne, hsp⟩
    rw [separable_unique hne h2 hsp h4 h3.symm]

/-- The usual case: a one-byte separator that occurs in none of the parts. -/
theorem join_split_byte (parts : List Str) (c : Byte) (hne : parts ≠ []) (hc : ∀ p ∈ parts, c ∉ p)
    (hs : (join [c] parts).length < 2147483648) :
    split (join [c] parts) [c] [] = .ok parts := by
  rw [join_split_iff _ _ (by simp) hs]
  refine ⟨hne, ?_⟩
  clear hs hne
  induction parts with
  | nil => trivial
  | cons x xs ih =>
    have hx := hc x (by simp)
    cases xs with
    | nil =>
      rintro ⟨a, b, hab⟩
      apply hx; rw [← hab]; simp
    | cons y ys =>
      refine ⟨?_, ih (fun p hp => hc p (by simp [hp]))⟩
      intro i hi h
      rw [single_prefix_drop, List.getElem?_append_left hi] at h
      exact hx (List.mem_of_getElem? h)

/-- An empty join is the empty string, and `join` is ordinary intercalation. -/
theorem join_is_intercalate (sep : Str) (parts : List Str) :
    join sep parts = List.intercalate sep parts := join_intercalate sep parts

/-- An empty separator stops the program. -/
theorem split_empty_sep (s : Str) (bits : List Str) : split s [] bits = .abort := by
  simp [split]

/-- **C16, limit of the code.** `find` results are stored in an `int`: in a string whose
first separator lies at offset exactly 2^31 the separator is not seen and the whole string
comes back as one piece. -/
theorem split_2GiB_bug (a b : Str) (ha : (44 : Byte) ∉ a) (hl : a.length = 2147483648)
    (hb : b.length < 2147483648) :
    split (a ++ 44 :: b) [44] [] = .ok [a ++ 44 :: b] := by
  have hf : findOpt (a ++ 44 :: b) [44] 0 = some 2147483648 := by
    have := find_single (done := []) (b := b) ha
    simpa [hl] using this
  have h1 : toSize 0 = 0 := by decide
  have h2 : int32 ((find (a ++ 44 :: b) [44] 0 : Nat) : Int) = -2147483648 := by
    rw [find, hf]; decide
  have h3 : toSize (((a ++ 44 :: b).length : Int) - 0) = (a ++ 44 :: b).length := by
    unfold toSize
    rw [List.length_append, List.length_cons, hl]; omega
  unfold split
  simp only [List.length_singleton, Nat.lt_add_one, decide_true, Res.require_true, Res.bind_ok, gt_iff_lt,
    splitLoop, h1, h2, h3]
  simp only [substr, List.drop_zero, List.take_length]
  simp

example : ∃ a : Str, (44 : Byte) ∉ a ∧ a.length = 2147483648 :=
  have h : ∀ n, ∃ a : Str, (44 : Byte) ∉ a ∧ a.length = n :=
    fun n => ⟨List.replicate n 97, by simp [List.mem_replicate], List.length_replicate⟩
  h _
example : split [97, 44, 98, 44, 44, 99] [44] [] = .ok [[97], [98], [], [99]] := by decide
example : Separable [44, 44] [[97, 44, 98], [99]] := by
  refine ⟨?_, ?_⟩
  · intro i hi
    have : i = 0 ∨ i = 1 ∨ i = 2 := by simp at hi; omega
    rcases this with rfl | rfl | rfl <;> decide
  · intro h; have := h.length_le; simp at this
/-- Without the condition the law fails: the parts `"a,"`, `"b"` joined by `",,"`. -/
example : split (join [44, 44] [[97, 44], [98]]) [44, 44] [] = .ok [[97], [44, 98]] := by decide

/-! ### C17 hexadecimal -/

theorem hexDigit_val : ∀ v : Fin 16, unpackhexchar (hexDigit v.val) = .ok v.val := by decide +kernel

theorem byte_recombine : ∀ c : Byte, Fin.ofNat 256 (((c.val / 16 % 16) <<< 4) ||| (c.val % 16)) = c := by
  decide +kernel

theorem hexPairs_hexstring (s : Str) : hexPairs (hexstring s) = .ok s := by
  induction s with
  | nil => rfl
  | cons c cs ih =>
    have h1 := hexDigit_val ⟨c.val / 16 % 16, by omega⟩
    have h2 := hexDigit_val ⟨c.val % 16, by omega⟩
    simp only at h1 h2
    have h3 := byte_recombine c
    simp only [hexstring, hexPairs, unpackhex, h1, h2, ih, Res.bind_ok, Res.pure_eq, h3]

theorem hexstring_length (s : Str) : (hexstring s).length = 2 * s.length := by
  induction s with
  | nil => rfl
  | cons c cs ih => simp [hexstring, ih]; omega

/-- **C17a.** `hex2raw(hexstring(s)) == s` for every string below 2 GiB. -/
theorem hex_round_trip (s : Str) (hs : s.length < 2147483648) : hex2rawS (hexstringS s) = .ok s := by
  have e1 : s.take (s.length % 2 ^ 32) = s := by
    rw [Nat.mod_eq_of_lt (by omega), List.take_length]
  have hl := hexstring_length s
  unfold hexstringS hex2rawS
  rw [e1]
  have e2 : (hexstring s).take ((hexstring s).length % 2 ^ 32) = hexstring s := by
    rw [Nat.mod_eq_of_lt (by omega), List.take_length]
  rw [e2]
  unfold hex2raw
  rw [hl, Nat.mul_mod_right]
  simp [hexPairs_hexstring]

theorem unpackhexchar_cases : ∀ c : Byte,
    (isxdigit c = true → ∃ v, v < 16 ∧ unpackhexchar c = .ok v ∧ hexDigit v = lower c) ∧
    (isxdigit c = false → unpackhexchar c = .abort) := by
  decide +kernel

theorem recombine_nibbles : ∀ a b : Fin 16,
    (Fin.ofNat 256 ((a.val <<< 4) ||| b.val)).val / 16 % 16 = a.val ∧
    (Fin.ofNat 256 ((a.val <<< 4) ||| b.val)).val % 16 = b.val := by decide +kernel

theorem hexPairs_spec : ∀ (n : Nat) (h : Str), h.length = 2 * n →
    ((∀ c ∈ h, isxdigit c = true) → ∃ s, hexPairs h = .ok s ∧ hexstring s = h.map lower) ∧
    ((∃ c ∈ h, isxdigit c = false) → hexPairs h = .abort) := by
  intro n
  induction n with
  | zero =>
    intro h hl
    have : h = [] := List.length_eq_zero_iff.1 (by omega)
    subst this
    exact ⟨fun _ => ⟨[], rfl, rfl⟩, fun ⟨c, hc, _⟩ => by cases hc⟩
  | succ n ih =>
    intro h hl
    match h, hl with
    | [], hl => simp at hl
    | [_], hl => simp at hl; omega
    | a :: b :: rest, hl =>
      simp only [List.length_cons] at hl
      obtain ⟨ih1, ih2⟩ := ih rest (by omega)
      obtain ⟨a1, a2⟩ := unpackhexchar_cases a
      obtain ⟨b1, b2⟩ := unpackhexchar_cases b
      constructor
      · intro hall
        obtain ⟨va, hva, ea, la⟩ := a1 (hall a (by simp))
        obtain ⟨vb, hvb, eb, lb⟩ := b1 (hall b (by simp))
        obtain ⟨s, es, ls⟩ := ih1 (fun c hc => hall c (by simp [hc]))
        have hn := recombine_nibbles ⟨va, hva⟩ ⟨vb, hvb⟩
        simp only at hn
        refine ⟨Fin.ofNat 256 ((va <<< 4) ||| vb) :: s, ?_, ?_⟩
        · simp only [hexPairs, unpackhex, ea, eb, es, Res.bind_ok, Res.pure_eq]
        · simp only [hexstring, hn.1, hn.2, la, lb, ls, List.map_cons]
      · rintro ⟨c, hc, hx⟩
        by_cases ha : isxdigit a = true
        · obtain ⟨va, hva, ea, _⟩ := a1 ha
          by_cases hb : isxdigit b = true
          · obtain ⟨vb, hvb, eb, _⟩ := b1 hb
            have : c ∈ rest := by
              rcases List.mem_cons.1 hc with rfl | hc
              · rw [hx] at ha; cases ha
              · rcases List.mem_cons.1 hc with rfl | hc
                · rw [hx] at hb; cases hb
                · exact hc
            simp only [hexPairs, unpackhex, ea, eb, ih2 ⟨c, this, hx⟩, Res.bind_ok, Res.pure_eq,
              Res.bind_abort]
          · simp only [hexPairs, unpackhex, ea, b2 (by simpa using hb), Res.bind_ok, Res.bind_abort]
        · simp only [hexPairs, unpackhex, a2 (by simpa using ha), Res.bind_abort]

/-- **C17b.** `hex2raw` accepts exactly the strings `ishexstring` recognises (even length,
hex digits only) and aborts on all others; what it returns prints back as the same digits in
lower case. -/
theorem hex2raw_accepts (h : Str) (hl : h.length < 4294967296) :
    (h.length % 2 = 0 ∧ (∀ c ∈ h, isxdigit c = true) →
      ∃ s, hex2rawS h = .ok s ∧ hexstringS s = h.map lower) ∧
    (¬ (h.length % 2 = 0 ∧ ∀ c ∈ h, isxdigit c = true) → hex2rawS h = .abort) := by
  have e : h.take (h.length % 2 ^ 32) = h := by
    rw [Nat.mod_eq_of_lt (by omega), List.take_length]
  unfold hex2rawS hex2raw
  rw [e]
  by_cases hev : h.length % 2 = 0
  · obtain ⟨h1, h2⟩ := hexPairs_spec (h.length / 2) h (by omega)
    simp only [hev, decide_true, Res.require_true, Res.bind_ok, true_and]
    constructor
    · intro hall
      obtain ⟨s, es, ls⟩ := h1 hall
      refine ⟨s, es, ?_⟩
      have hlen : 2 * s.length = h.length := by
        rw [← hexstring_length, ls, List.length_map]
      unfold hexstringS
      rw [Nat.mod_eq_of_lt (by omega), List.take_length, ls]
    · intro hno
      apply h2
      apply Classical.byContradiction
      intro hn
      apply hno
      intro c hc
      cases hx : isxdigit c with
      | true => rfl
      | false => exact absurd ⟨c, hc, hx⟩ hn
  · simp [hev]

/-- **C17c, refuted.** `maybehex2raw(maybehexstring(s)) == s` fails for the printable string
`"ab"`: it is printed as is, and read back as one byte 0xab. -/
theorem maybehex_round_trip_bug :
    maybehexstring [97, 98] = [97, 98] ∧ maybehex2raw [97, 98] = .ok [0xab] := by decide

theorem lower_hexDigit : ∀ v : Fin 16, isxdigit (hexDigit v.val) = true := by decide +kernel

theorem hexstring_isxdigit (s : Str) : ∀ c ∈ hexstring s, isxdigit c = true := by
  induction s with
  | nil => intro c hc; cases hc
  | cons x xs ih =>
    intro c hc
    simp only [hexstring, List.mem_cons] at hc
    rcases hc with rfl | rfl | hc
    · exact lower_hexDigit ⟨x.val / 16 % 16, by omega⟩
    · exact lower_hexDigit ⟨x.val % 16, by omega⟩
    · exact ih c hc

/-- **C17c, partial.** The `maybe` pair round-trips exactly for the strings that are not
themselves hex strings, or contain an unprintable character, or are empty.
Missing: non-empty printable strings that happen to be hex, for which it is false. -/
theorem maybehex_round_trip_partial (s : Str) (hs : s.length < 2147483648) :
    maybehex2raw (maybehexstring s) = .ok s ↔
      (s = [] ∨ ishexstring s = false ∨ s.all (fun c => isprint c && isascii c) = false) := by
  have e1 : s.take (s.length % 2 ^ 32) = s := by
    rw [Nat.mod_eq_of_lt (by omega), List.take_length]
  unfold maybehexstring
  by_cases hp : s.all (fun c => isprint c && isascii c) = true
  · rw [if_pos hp]
    unfold maybehex2raw
    by_cases hx : ishexstring s = true
    · rw [if_pos hx]
      constructor
      · intro h
        left
        have hx' : s.length % 2 = 0 ∧ ∀ c ∈ s, isxdigit c = true := by
          simpa [ishexstring] using hx
        obtain ⟨r, hr, hr2⟩ := (hex2raw_accepts s (by omega)).1 hx'
        rw [hr] at h
        injection h with h
        subst h
        unfold hexstringS at hr2
        rw [e1] at hr2
        have h1 := hexstring_length r
        rw [hr2, List.length_map] at h1
        exact List.length_eq_zero_iff.1 (by omega)
      · rintro (rfl | h | h)
        · decide
        · rw [h] at hx; cases hx
        · rw [h] at hp; cases hp
    · rw [if_neg hx]
      simp at hx
      simp [hx]
  · rw [if_neg hp]
    have hp' : s.all (fun c => isprint c && isascii c) = false := by simpa using hp
    have hx : ishexstring (hexstringS s) = true := by
      unfold hexstringS
      rw [e1]
      simp only [ishexstring, hexstring_length, Nat.mul_mod_right, beq_self_eq_true, Bool.true_and,
        List.all_eq_true]
      exact hexstring_isxdigit s
    constructor
    · intro _; right; right; exact hp'
    · intro _
      unfold maybehex2raw
      rw [if_pos hx, hex_round_trip s hs]

/-- **C17, limit of the code.** Sizes are passed as 32-bit values: a string of exactly 4 GiB
prints as the empty string. -/
theorem hexstring_4GiB_bug (s : Str) (hs : s.length = 4294967296) : hexstringS s = [] := by
  unfold hexstringS
  rw [hs]; rfl

example : hex2rawS (hexstringS [0, 255, 97]) = .ok [0, 255, 97] := by decide
example : hexstringS [0, 255, 97] = [48, 48, 102, 102, 54, 49] := by decide
example : maybehex2raw (maybehexstring [0, 97]) = .ok [0, 97] := by decide

/-! ### C18 escaping -/

theorem mysql_step (c : Byte) (s rest : Str)
    (ih : mysqlLex (mysqlEscape s ++ 39 :: rest) = some (s, rest)) :
    mysqlLex (mysqlEscape (c :: s) ++ 39 :: rest) = some (c :: s, rest) := by
  have table : ∀ c : Byte, mysqlTable c ≠ 0 →
      (if mysqlTable c = 48 then (0 : Byte) else if mysqlTable c = 98 then 8
        else if mysqlTable c = 110 then 10 else if mysqlTable c = 114 then 13
        else if mysqlTable c = 116 then 9 else if mysqlTable c = 90 then 26 else mysqlTable c) = c := by
    decide +kernel
  have plain : ∀ c : Byte, mysqlTable c = 0 → c ≠ 39 ∧ c ≠ 92 := by decide +kernel
  by_cases h : mysqlTable c ≠ 0
  · simp only [mysqlEscape, h, ne_eq, not_false_eq_true, if_true, List.cons_append, mysqlLex]
    rw [if_neg (by decide), ih, table c h]
    rfl
  · have h0 : mysqlTable c = 0 := Classical.not_not.1 h
    obtain ⟨p1, p2⟩ := plain c h0
    simp only [mysqlEscape, h, if_false, List.cons_append]
    cases hd : mysqlEscape s ++ 39 :: rest with
    | nil => simp at hd
    | cons d ds =>
      rw [hd] at ih
      simp only [mysqlLex, p1, p2, if_false, ih]
      rfl

/-- **C18a.** In any SQL text, `'` + mysqlEscape(s) + `'` is lexed as the literal `s` and the
lexer resumes right after the closing quote: the value is preserved and nothing in `s` can end
the literal early. -/
theorem mysqlEscape_safe (s rest : Str) : mysqlLex (mysqlEscape s ++ 39 :: rest) = some (s, rest) := by
  induction s with
  | nil => cases rest <;> simp [mysqlEscape, mysqlLex]
  | cons c cs ih => exact mysql_step c cs rest ih

/-- No raw control or quote character occurs in the output, except that a backslash, `"` and
`'` may occur as part of an escape pair. -/
theorem mysqlEscape_chars (s : Str) :
    ∀ c ∈ mysqlEscape s, c ≠ 0 ∧ c ≠ 8 ∧ c ≠ 9 ∧ c ≠ 10 ∧ c ≠ 13 ∧ c ≠ 26 := by
  have table : ∀ c : Byte, (mysqlTable c ≠ 0 → mysqlTable c ≠ 8 ∧ mysqlTable c ≠ 9 ∧ mysqlTable c ≠ 10 ∧
      mysqlTable c ≠ 13 ∧ mysqlTable c ≠ 26) ∧
      (mysqlTable c = 0 → c ≠ 0 ∧ c ≠ 8 ∧ c ≠ 9 ∧ c ≠ 10 ∧ c ≠ 13 ∧ c ≠ 26) := by decide +kernel
  induction s with
  | nil => intro c hc; cases hc
  | cons x xs ih =>
    intro c hc
    by_cases h : mysqlTable x ≠ 0
    · simp only [mysqlEscape, h, ne_eq, not_false_eq_true, if_true, List.mem_cons] at hc
      rcases hc with rfl | rfl | hc
      · decide
      · exact ⟨h, (table x).1 h⟩
      · exact ih c hc
    · simp only [mysqlEscape, h, if_false, List.mem_cons] at hc
      rcases hc with rfl | hc
      · exact (table c).2 (Classical.not_not.1 h)
      · exact ih c hc

/-- The same for the `std::string` overload, below 4 GiB (its size is passed as 32 bits). -/
theorem mysqlEscapeS_safe (s rest : Str) (hs : s.length < 4294967296) :
    mysqlLex (mysqlEscapeS s ++ 39 :: rest) = some (s, rest) := by
  unfold mysqlEscapeS
  rw [Nat.mod_eq_of_lt (by omega), List.take_length]
  exact mysqlEscape_safe s rest

theorem hexVal_hexDigit : ∀ v : Fin 16, hexVal (hexDigit v.val) = some v.val ∧ hexDigit v.val ≠ 37 := by
  decide +kernel

theorem byte_split : ∀ c : Byte, Fin.ofNat 256 (16 * (c.val / 16 % 16) + c.val % 16) = c := by
  decide +kernel

/-- **C18b.** `escapeUnprintable` loses nothing. -/
theorem escapeUnprintable_lossless (s : Str) : unescape (escapeUnprintable s) = some s := by
  induction s with
  | nil => rfl
  | cons c cs ih =>
    simp only [escapeUnprintable]
    by_cases he : euEscape c = true
    · by_cases hc : c = 37
      · subst hc
        rw [if_pos he, if_pos rfl, unescape.eq_def]
        simp [ih]
      · obtain ⟨h1, h1'⟩ := hexVal_hexDigit ⟨c.val / 16 % 16, by omega⟩
        obtain ⟨h2, _⟩ := hexVal_hexDigit ⟨c.val % 16, by omega⟩
        simp only at h1 h1' h2
        have hb := byte_split c
        simp only [he, hc, if_true, if_false, unescape, h1', h1, h2, ih, Option.map_some, hb]
    · have hc : c ≠ 37 := by
        rintro rfl; exact he (by decide)
      have he' : euEscape c = false := by simpa using he
      rw [he', if_neg (by decide), unescape.eq_def]
      simp [hc, ih]

/-- Its output is printable ASCII. -/
theorem escapeUnprintable_printable (s : Str) :
    ∀ c ∈ escapeUnprintable s, 32 ≤ c.val ∧ c.val < 127 := by
  have hd : ∀ v : Fin 16, 32 ≤ (hexDigit v.val).val ∧ (hexDigit v.val).val < 127 := by decide +kernel
  have hp : ∀ c : Byte, euEscape c = false → 32 ≤ c.val ∧ c.val < 127 := by decide +kernel
  induction s with
  | nil => intro c hc; cases hc
  | cons x xs ih =>
    intro c hc
    simp only [escapeUnprintable] at hc
    by_cases he : euEscape x = true
    · by_cases hx : x = 37
      · rw [if_pos he, if_pos hx] at hc
        simp only [List.mem_cons] at hc
        rcases hc with rfl | rfl | hc
        · decide
        · decide
        · exact ih c hc
      · rw [if_pos he, if_neg hx] at hc
        simp only [List.mem_cons] at hc
        rcases hc with rfl | rfl | rfl | hc
        · decide
        · exact hd ⟨x.val / 16 % 16, by omega⟩
        · exact hd ⟨x.val % 16, by omega⟩
        · exact ih c hc
    · have he' : euEscape x = false := by simpa using he
      rw [he', if_neg (by decide)] at hc
      rcases List.mem_cons.1 hc with rfl | hc
      · exact hp _ he'
      · exact ih c hc

example : mysqlEscapeS [39, 59, 92, 10] = [92, 39, 59, 92, 92, 92, 110] := by decide
example : escapeUnprintable [97, 37, 10] = [97, 37, 37, 37, 48, 97] := by decide

/-! ### C19 CSV -/

/-- The strings `toCSVform` prints so that a reader gets them back. -/
def csvSafe (s : Str) : Prop := (44 : Byte) ∈ s ∨ ((34 : Byte) ∉ s ∧ (10 : Byte) ∉ s ∧ (13 : Byte) ∉ s)

theorem readField_safe {s o rest : Str} (hs : s.length < 1073741823) (hr : atEnd rest = true)
    (h : csvSafe s) (ho : toCSVform s = .ok o) : readField (o ++ rest) = some (s, rest) := by
  rw [toCSVform_eq s hs] at ho
  injection ho with ho
  by_cases hc : (44 : Byte) ∈ s
  · rw [if_pos hc] at ho
    subst ho
    simp only [List.cons_append, List.append_assoc, readField, if_true]
    exact readQuoted_double s rest hr
  · rw [if_neg hc] at ho
    subst ho
    have hq : (34 : Byte) ∉ s ∧ (10 : Byte) ∉ s ∧ (13 : Byte) ∉ s := by
      rcases h with h | h
      · exact absurd h hc
      · exact h
    have hp := readPlain_plain s rest hr (fun c hcs => ⟨fun e => hq.1 (e ▸ hcs), fun e => hc (e ▸ hcs),
      fun e => hq.2.1 (e ▸ hcs), fun e => hq.2.2 (e ▸ hcs)⟩)
    cases hsr : s ++ rest with
    | nil =>
      have : s = [] ∧ rest = [] := by simpa using hsr
      rw [this.1, this.2]; rfl
    | cons d ds =>
      have hd : d ≠ 34 := by
        intro e
        cases s with
        | nil =>
          simp at hsr; subst hsr; revert hr; simp [atEnd, e]
        | cons x xs =>
          simp at hsr
          exact hq.1 (by simp [hsr.1, e])
      simp only [readField, hd, if_false]
      rw [← hsr]; exact hp

/-- **C19, exact scope.** A field printed by `toCSVform` is read back as the original text,
in any position of a row, if and only if the string contains a comma or contains none of
`"`, CR, LF. -/
theorem csv_field_iff_partial (s rest : Str) (hs : s.length < 1073741823) (hr : atEnd rest = true) :
    ∃ o, toCSVform s = .ok o ∧ (readField (o ++ rest) = some (s, rest) ↔ csvSafe s) := by
  have ho := toCSVform_eq s hs
  refine ⟨_, ho, ?_, fun h => readField_safe hs hr h ho⟩
  intro h
  by_cases hc : (44 : Byte) ∈ s
  · exact Or.inl hc
  · right
    rw [if_neg hc] at h
    cases s with
    | nil => simp
    | cons c cs =>
      simp only [List.cons_append, readField] at h
      by_cases hq : c = 34
      · rw [if_pos hq] at h
        have := readQuoted_length _ (Nat.le_refl _) h
        simp at this
        omega
      · rw [if_neg hq] at h
        have := readPlain_chars h
        exact ⟨fun hm => (this 34 hm).1 rfl, fun hm => (this 10 hm).2.1 rfl, fun hm => (this 13 hm).2.2 rfl⟩

/-- A whole row of such fields is read back field by field. -/
theorem csv_row_partial (fs os : List Str) (hne : fs ≠ [])
    (hlen : ∀ s ∈ fs, s.length < 1073741823) (hsafe : ∀ s ∈ fs, csvSafe s)
    (ho : os.map Res.ok = fs.map toCSVform) (fuel : Nat) (hf : fs.length ≤ fuel) :
    readRow fuel (join [44] os) = some fs := by
  induction fs generalizing os fuel with
  | nil => exact absurd rfl hne
  | cons s fs ih =>
    cases os with
    | nil => simp at ho
    | cons o os =>
      simp only [List.map_cons, List.cons.injEq] at ho
      cases fuel with
      | zero => simp at hf
      | succ fuel =>
        cases fs with
        | nil =>
          cases os with
          | cons _ _ => simp at ho
          | nil =>
            rw [join_one]
            have := readField_safe (rest := []) (hlen s (by simp)) rfl (hsafe s (by simp)) ho.1.symm
            rw [List.append_nil] at this
            simp [readRow, this]
        | cons s2 fs2 =>
          cases os with
          | nil => simp at ho
          | cons o2 os2 =>
            rw [join_cons_cons, List.append_assoc, List.singleton_append]
            have := readField_safe (rest := 44 :: join [44] (o2 :: os2)) (hlen s (by simp)) (by simp [atEnd])
              (hsafe s (by simp)) ho.1.symm
            simp only [readRow, this]
            rw [ih (o2 :: os2) (by simp) (fun x hx => hlen x (by simp [hx]))
              (fun x hx => hsafe x (by simp [hx])) ho.2 fuel (by simpa using hf)]
            rfl

/-- **C19, refuted.** The field `"a"` (with its quotes) is printed unchanged and read back
without the quotes; the field `a<newline>b` is printed unchanged and read back as `a`. -/
theorem csv_bug :
    toCSVform [34, 97, 34] = .ok [34, 97, 34] ∧ readField [34, 97, 34] = some ([97], []) ∧
    toCSVform [97, 10, 98] = .ok [97, 10, 98] ∧ readField [97, 10, 98] = some ([97], [10, 98]) := by
  decide

example : toCSVform [34, 44, 97] = .ok [34, 34, 34, 44, 97, 34] := by decide
example : csvSafe [34, 44, 97] := by left; decide

/-! ### C20 IPv4 -/

theorem parseDigits_nondigit (base acc : Nat) (rest : Str)
    (h : ∀ c cs, rest = c :: cs → digitVal base c = none) : parseDigits base acc rest = (acc, rest) := by
  cases rest with
  | nil => rfl
  | cons c cs => simp [parseDigits, h c cs rfl]

theorem digitVal_dec : ∀ n : Fin 10, digitVal 10 (Fin.ofNat 256 (48 + n.val)) = some n.val ∧
    (48 ≤ (Fin.ofNat 256 (48 + n.val)).val ∧ (Fin.ofNat 256 (48 + n.val)).val ≤ 57) ∧
    (n.val ≠ 0 → Fin.ofNat 256 (48 + n.val) ≠ 48) := by decide +kernel

theorem parsePart_decimal (n : Nat) (hn : n < 256) (rest : Str)
    (h : ∀ c cs, rest = c :: cs → c = 46) : parsePart (decimal n ++ rest) = some (n, rest) := by
  have h10 : ∀ c cs, rest = c :: cs → digitVal 10 c = none := by
    intro c cs e; rw [h c cs e]; decide
  have h8 : ∀ c cs, rest = c :: cs → digitVal 8 c = none := by
    intro c cs e; rw [h c cs e]; decide
  unfold decimal
  split
  · rename_i h1
    obtain ⟨d1, d2, d3⟩ := digitVal_dec ⟨n, h1⟩
    simp only at d1 d2 d3
    by_cases h0 : n = 0
    · subst h0
      simp only [List.singleton_append, parsePart]
      cases rest with
      | nil => decide
      | cons c cs =>
        have := h c cs rfl
        subst this
        rw [if_pos (by decide), if_pos (by decide)]
        simp only
        rw [if_neg (by decide), parseDigits_nondigit 8 0 _ h8]
    · have := d3 h0
      simp only [List.singleton_append, parsePart, d2, this, if_true, if_false, and_self]
      simp only [parseDigits, d1, parseDigits_nondigit 10 _ _ h10]
      simp
  · split
    · rename_i h1 h2
      obtain ⟨a1, a2, a3⟩ := digitVal_dec ⟨n / 10, by omega⟩
      obtain ⟨b1, b2, b3⟩ := digitVal_dec ⟨n % 10, by omega⟩
      simp only at a1 a2 a3 b1 b2 b3
      have := a3 (by omega)
      simp only [List.cons_append, List.nil_append, parsePart, a2, this, if_true, if_false, and_self]
      simp only [parseDigits, a1, b1, parseDigits_nondigit 10 _ _ h10]
      congr 2; omega
    · rename_i h1 h2
      obtain ⟨a1, a2, a3⟩ := digitVal_dec ⟨n / 100, by omega⟩
      obtain ⟨b1, b2, b3⟩ := digitVal_dec ⟨n / 10 % 10, by omega⟩
      obtain ⟨c1, c2, c3⟩ := digitVal_dec ⟨n % 10, by omega⟩
      simp only at a1 a2 a3 b1 b2 b3 c1 c2 c3
      have := a3 (by omega)
      simp only [List.cons_append, List.nil_append, parsePart, a2, this, if_true, if_false, and_self]
      simp only [parseDigits, a1, b1, c1, parseDigits_nondigit 10 _ _ h10]
      congr 2; omega

theorem parseParts_ip (a b c d : Nat) (ha : a < 256) (hb : b < 256) (hc : c < 256) (hd : d < 256) :
    parseParts 4 (decimal a ++ [46] ++ decimal b ++ [46] ++ decimal c ++ [46] ++ decimal d)
      = some ([a, b, c, d], []) := by
  have e1 := parsePart_decimal a ha (46 :: (decimal b ++ [46] ++ decimal c ++ [46] ++ decimal d))
    (by intro x xs h; simp at h; exact h.1.symm)
  have e2 := parsePart_decimal b hb (46 :: (decimal c ++ [46] ++ decimal d))
    (by intro x xs h; simp at h; exact h.1.symm)
  have e3 := parsePart_decimal c hc (46 :: decimal d) (by intro x xs h; simp at h; exact h.1.symm)
  have e4 := parsePart_decimal d hd [] (by intro x xs h; simp at h)
  simp only [List.append_assoc, List.append_nil, List.cons_append, List.nil_append] at e1 e2 e3 e4 ⊢
  simp only [parseParts, e1, e2, e3, e4]

theorem inetAddr_ip (v : BitVec 32) : inetAddr (ipv4tostring v) = v.toNat := by
  unfold ipv4tostring inetAddr
  have h : ∀ k : Nat, ((v >>> k) &&& 0xFF).toNat = v.toNat / 2 ^ k % 256 := by
    intro k
    rw [BitVec.toNat_and, BitVec.toNat_ushiftRight, Nat.shiftRight_eq_div_pow]
    show _ &&& 255 = _
    rw [show (255 : Nat) = 2 ^ 8 - 1 by rfl, Nat.and_two_pow_sub_one_eq_mod]
  have hv := v.isLt
  rw [h 24, h 16, h 8, h 0]
  rw [parseParts_ip _ _ _ _ (by omega) (by omega) (by omega) (by omega)]
  simp only [inetAddr.value]
  rw [if_pos (by omega)]
  omega

/-- **C20, partial.** Every address except 255.255.255.255 round-trips.
Missing: that one address, for which it is false. -/
theorem ipv4_round_trip_partial (v : BitVec 32) (hv : v ≠ 0xFFFFFFFF#32) :
    stringtoipv4 (ipv4tostring v) = .ok v := by
  unfold stringtoipv4
  rw [inetAddr_ip]
  have : v.toNat ≠ 0xFFFFFFFF := by
    intro h; apply hv; apply BitVec.eq_of_toNat_eq; rw [h]; rfl
  simp [this]

/-- **C20, refuted.** The broadcast address aborts: its binary form is the error value of
`inet_addr`. -/
theorem ipv4_broadcast_bug : stringtoipv4 (ipv4tostring 0xFFFFFFFF#32) = .abort := by
  unfold stringtoipv4
  rw [inetAddr_ip]
  rfl

example : ipv4tostring 0xC0A80001#32 = [49, 57, 50, 46, 49, 54, 56, 46, 48, 46, 49] := by decide

/-! ### C59 prefix and suffix tests -/

/-- **C59.** `prefixequal`/`suffixequal` decide exactly the prefix/suffix relation. -/
theorem prefixequal_iff (s pre : Str) : prefixequal s pre = true ↔ ∃ t, s = pre ++ t := by
  unfold prefixequal
  simp only [ge_iff_le, Bool.and_eq_true, decide_eq_true_eq, beq_iff_eq]
  constructor
  · rintro ⟨_, h⟩
    refine ⟨s.drop pre.length, ?_⟩
    have := (List.take_append_drop pre.length s).symm
    rwa [h] at this
  · rintro ⟨t, rfl⟩; simp

theorem suffixequal_iff (s suf : Str) : suffixequal s suf = true ↔ ∃ t, s = t ++ suf := by
  unfold suffixequal
  constructor
  · intro h
    split at h
    · cases h
    · rename_i hl
      rw [List.take_of_length_le (by rw [List.length_drop]; omega)] at h
      simp at h
      exact ⟨s.take (s.length - suf.length), by
        have := (List.take_append_drop (s.length - suf.length) s).symm
        rw [h] at this; exact this⟩
  · rintro ⟨t, rfl⟩
    simp

example : prefixequal [1, 2, 3] [1, 2] = true ∧ suffixequal [1, 2, 3] [2, 3] = true := by decide

end Verif.Str
