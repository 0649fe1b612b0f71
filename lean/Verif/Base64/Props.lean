import Verif.Base64.Spec

/-! # Base64: property theorems (C14, C15, C60) -/

namespace Verif.Base64

theorem digitOf_translate : ∀ v : Fin 64, digitOf (translate v.val) = some v.val := by decide +kernel

theorem detranslate_eq_digitOf : ∀ c : Byte, detranslate c = digitOf c := by decide +kernel

theorem readFrom_map (l : List Nat) (h : ∀ v ∈ l, v < 64) :
    ∀ acc, readFrom acc (l.map translate) = some (l.foldl (fun a d => a * 64 + d) acc) := by
  induction l with
  | nil => intro acc; rfl
  | cons v vs ih =>
    intro acc
    have hv := digitOf_translate ⟨v, h v (by simp)⟩
    simp only at hv
    simp only [List.map_cons, readFrom, hv, List.foldl_cons]
    exact ih (fun w hw => h w (by simp [hw])) _

theorem readNumber_encodeNum (n d : Nat) : readNumber (encodeNumLoop n d) = some (n % 64 ^ d) := by
  rw [encodeNumLoop_eq, readNumber, readFrom_map _ (numDigits_lt d n), ← digitsVal_numDigits]
  rfl

/-! ### C14 round trip -/

/-- **C14a.** A 32-bit number encoded with any number of digits reads back as the number
modulo `64^digits`; the string has exactly `digits` characters (6 when 0 is passed). -/
theorem encode32_reads_back (n : BitVec 32) (digits : Nat) :
    (encode32 n digits).length = (if digits = 0 then 6 else digits) ∧
    readNumber (encode32 n digits) = some (n.toNat % 64 ^ (if digits = 0 then 6 else digits)) :=
  ⟨encodeNumLoop_length _ _, readNumber_encodeNum _ _⟩

theorem encode64_reads_back (n : BitVec 64) (digits : Nat) :
    (encode64 n digits).length = (if digits = 0 then 11 else digits) ∧
    readNumber (encode64 n digits) = some (n.toNat % 64 ^ (if digits = 0 then 11 else digits)) :=
  ⟨encodeNumLoop_length _ _, readNumber_encodeNum _ _⟩

/-- With the default or any larger digit count the number itself is read back. -/
theorem encode32_lossless (n : BitVec 32) (digits : Nat) (h : digits = 0 ∨ 6 ≤ digits) :
    readNumber (encode32 n digits) = some n.toNat := by
  rw [(encode32_reads_back n digits).2, Nat.mod_eq_of_lt]
  have hn := n.isLt
  have h6 : 64 ^ 6 ≤ 64 ^ (if digits = 0 then 6 else digits) :=
    Nat.pow_le_pow_right (by omega) (by split <;> omega)
  have : 2 ^ 32 ≤ 64 ^ 6 := by decide
  omega

theorem encode64_lossless (n : BitVec 64) (digits : Nat) (h : digits = 0 ∨ 11 ≤ digits) :
    readNumber (encode64 n digits) = some n.toNat := by
  rw [(encode64_reads_back n digits).2, Nat.mod_eq_of_lt]
  have hn := n.isLt
  have h6 : 64 ^ 11 ≤ 64 ^ (if digits = 0 then 11 else digits) :=
    Nat.pow_le_pow_right (by omega) (by split <;> omega)
  have : 2 ^ 64 ≤ 64 ^ 11 := by decide
  omega

example : encode32 4294967295#32 0 = encode64 4294967295#64 6 ∧
    readNumber (encode32 4294967295#32 0) = some 4294967295 := by decide
example : readNumber (encode32 65#32 1) = some 1 := by decide

theorem encodeBytes_default (s : Str) : encodeBytes s 0 = (sextets s).map translate := by
  have hlen := sextets_length s
  have hd : (if s.length * 8 % 6 = 0 then s.length * 8 / 6 else s.length * 8 / 6 + 1)
      = (sextets s).length := by rw [hlen]; split <;> omega
  have h := encodeLoop_eq s (sextets s).length
  unfold padded at h
  simp only [encodeBytes, if_true, hd]
  rw [h, List.take_left' (by simp)]

/-- **C14b.** Every byte string survives `decode(encode(s))`, and the encoding has
`ceil(8 n / 6)` characters. `digits` is an `int32_t`, hence the size bound. -/
theorem decode_encode (s : Str) (_hs : s.length < 268435456) :
    (encodeBytes s 0).length = (8 * s.length + 5) / 6 ∧ decode (encodeBytes s 0) = .ok s := by
  have hl : ((sextets s).map translate).length = (s.length * 8 + 5) / 6 := by
    rw [List.length_map, sextets_length]
  rw [encodeBytes_default]
  refine ⟨by rw [hl]; omega, ?_⟩
  have hr : ((s.length * 8 + 5) / 6) * 6 / 8 = s.length := by omega
  simp only [decode, hl, hr, decodeLoop_sextets, Res.bind_ok, Res.pure_eq]
  simp

example : decode (encodeBytes [0, 255, 128, 7] 0) = .ok [0, 255, 128, 7] := by decide

/-- The byte-string encoding is injective. -/
theorem encodeBytes_injective (s t : Str) (h : encodeBytes s 0 = encodeBytes t 0) : s = t := by
  rw [encodeBytes_default, encodeBytes_default] at h
  exact sextets_inj _ _ (map_translate_inj (sextets_lt s) (sextets_lt t) h)

/-- **C14c.** With an explicit digit count the result is the default encoding cut or filled
with `'+'` to that length. -/
theorem encodeBytes_digits (s : Str) (d : Nat) (hd : d ≠ 0) :
    encodeBytes s d = (encodeBytes s 0 ++ List.replicate d 43).take d := by
  have h := encodeLoop_eq s d
  unfold padded at h
  rw [encodeBytes_default]
  simp only [encodeBytes, hd, if_false]
  rw [h]; rfl

/-- **C14d.** `decode` never looks beyond the characters it needs, but any character outside
the alphabet among those makes it read an uninitialised table entry. -/
theorem decode_bad_char (c : Byte) (rest : Str) (hc : c ∉ alphabet) (hr : rest ≠ []) :
    decode (c :: rest) = .ub := by
  have hd : detranslate c = none := by
    rw [detranslate_eq_digitOf, digitOf, List.idxOf?_eq_none_iff]; exact hc
  have hlen : (c :: rest).length * 6 / 8 ≠ 0 := by
    have := List.length_pos_iff.2 hr
    simp only [List.length_cons]; omega
  simp only [decode, decodeLoop, hd, hlen, if_false, Res.bind_ub]

example : decode [61, 65] = .ub := by decide

/-! ### C15 order -/

/-- **C15a.** Byte-wise comparison of the encodings is comparison of the byte strings. -/
theorem encodeBytes_order (s t : Str) : encodeBytes s 0 < encodeBytes t 0 ↔ s < t := by
  rw [encodeBytes_default, encodeBytes_default, map_translate_lt (sextets_lt s) (sextets_lt t)]
  constructor
  · intro h
    by_cases hst : s < t
    · exact hst
    · exfalso
      have hts : t ≤ s := List.not_lt.1 hst
      rcases List.le_iff_lt_or_eq.1 hts with h' | h'
      · exact List.lt_asymm h (sextets_lt_of_lt _ _ h')
      · subst h'; exact List.lt_irrefl _ h
  · exact sextets_lt_of_lt s t

example : encodeBytes [1] 0 < encodeBytes [1, 0] 0 ∧ encodeBytes [1, 255] 0 < encodeBytes [2] 0 := by
  decide

/-- **C15b.** Equal digit counts, numbers that fit: comparison of the encodings is comparison
of the numbers. -/
theorem encode32_order (m n : BitVec 32) (digits : Nat)
    (hm : m.toNat < 64 ^ (if digits = 0 then 6 else digits))
    (hn : n.toNat < 64 ^ (if digits = 0 then 6 else digits)) :
    encode32 m digits < encode32 n digits ↔ m < n := by
  rw [encode32, encode32, encodeNumLoop_eq, encodeNumLoop_eq,
    map_translate_lt (numDigits_lt _ _) (numDigits_lt _ _), numDigits_order _ _ _ hm hn, BitVec.lt_def]

theorem encode64_order (m n : BitVec 64) (digits : Nat)
    (hm : m.toNat < 64 ^ (if digits = 0 then 11 else digits))
    (hn : n.toNat < 64 ^ (if digits = 0 then 11 else digits)) :
    encode64 m digits < encode64 n digits ↔ m < n := by
  rw [encode64, encode64, encodeNumLoop_eq, encodeNumLoop_eq,
    map_translate_lt (numDigits_lt _ _) (numDigits_lt _ _), numDigits_order _ _ _ hm hn, BitVec.lt_def]

/-- With the default digit count the side condition always holds. -/
theorem encode32_order_default (m n : BitVec 32) : encode32 m 0 < encode32 n 0 ↔ m < n := by
  apply encode32_order
  · have := m.isLt; have : 2 ^ 32 ≤ 64 ^ 6 := by decide
    simp only [if_true]; omega
  · have := n.isLt; have : 2 ^ 32 ≤ 64 ^ 6 := by decide
    simp only [if_true]; omega

theorem encode64_order_default (m n : BitVec 64) : encode64 m 0 < encode64 n 0 ↔ m < n := by
  apply encode64_order
  · have := m.isLt; have : 2 ^ 64 ≤ 64 ^ 11 := by decide
    simp only [if_true]; omega
  · have := n.isLt; have : 2 ^ 64 ≤ 64 ^ 11 := by decide
    simp only [if_true]; omega

/-- The signed overload does not preserve order: a negative number sorts after every
non-negative one. -/
theorem signed_order_bug (a b : Int) (ha : -2147483648 ≤ a ∧ a < 0) (hb : 0 ≤ b ∧ b < 2147483648) :
    encodeS32 b 0 < encodeS32 a 0 := by
  rw [encodeS32, encodeS32, encode32_order_default, BitVec.lt_def, BitVec.toNat_ofInt,
    BitVec.toNat_ofInt]
  omega

/-- Two signed numbers of the same sign are ordered correctly. -/
theorem signed_order_partial (a b : Int) (ha : -2147483648 ≤ a ∧ a < 2147483648)
    (hb : -2147483648 ≤ b ∧ b < 2147483648) (hab : (a < 0) = (b < 0)) :
    encodeS32 a 0 < encodeS32 b 0 ↔ a < b := by
  rw [encodeS32, encodeS32, encode32_order_default, BitVec.lt_def, BitVec.toNat_ofInt,
    BitVec.toNat_ofInt]
  by_cases h : a < 0
  · have h' : b < 0 := by rw [← hab]; exact h
    omega
  · have h' : ¬ b < 0 := by rw [← hab]; exact h
    omega

example : encodeS32 5 0 < encodeS32 (-1) 0 := by decide

/-! ### C60 encodeBackward -/

/-- **C60a.** If the input holds enough bits for the digits asked for, `encodeBackward` writes
the low `6 * digits` bits of the big-endian value of the input, in `digits` characters. -/
theorem encodeBackward_value (s : Str) (digits : Nat) (h : 6 * digits ≤ 8 * s.length) :
    ∃ out, encodeBackward s digits = .ok out ∧ out.length = digits ∧
      readNumber out = some (bytesVal s % 64 ^ digits) := by
  refine ⟨(numDigits (bytesVal s) digits).map translate, ?_, by simp [numDigits_length], ?_⟩
  · rw [encodeBackward, backwardLoop_eq digits _ 0 0 (by omega) (by omega) (by simpa using h)]
    simp [leVal_reverse]
  · rw [readNumber, readFrom_map _ (numDigits_lt _ _), ← digitsVal_numDigits]; rfl

/-- **C60b.** Otherwise it reads before the start of the input. -/
theorem encodeBackward_underrun (s : Str) (digits : Nat) (h : 8 * s.length < 6 * digits) :
    encodeBackward s digits = .ub := by
  rw [encodeBackward, backwardLoop_ub _ _ _ _ (by simpa using h)]; rfl

/-- In particular the digit count that `encode` uses by default is unusable unless the size
is a multiple of three. -/
theorem encodeBackward_default_digits (s : Str) (h : s.length % 3 ≠ 0) :
    encodeBackward s (encodeBytes s 0).length = .ub := by
  apply encodeBackward_underrun
  rw [encodeBytes_default, List.length_map, sextets_length]; omega

example : encodeBackward [1, 2, 3] 4 = .ok (encodeBytes [1, 2, 3] 0) := by decide
example : encodeBackward [1, 2] 3 = .ub := by decide

end Verif.Base64
