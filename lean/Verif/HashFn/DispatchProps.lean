import Verif.HashFn.Dispatch
import Verif.HashFn.Props

/-! # Properties of `lintel::hash` (C225) -/

namespace Verif.HashFn

/-! ## Specification: what a key says, and the value it should have -/

/-- The text of a C string: what is before the first zero. -/
def cText (mem : List Byte) : List Byte := mem.takeWhile (· ≠ 0)

/-- All C strings end, and no text is as long as 4 GiB. -/
def Key.Good : Key → Prop
  | .str s => s.length < 2 ^ 32
  | .cstr mem => 0 ∈ mem ∧ (cText mem).length < 2 ^ 32
  | .pair a b => a.Good ∧ b.Good

/-- The four bytes of a number, lowest first. -/
def fourBytes (n : Nat) : List Byte := [Fin.ofNat 256 n, Fin.ofNat 256 (n / 2 ^ 8), Fin.ofNat 256 (n / 2 ^ 16), Fin.ofNat 256 (n / 2 ^ 24)]

/-- In terms of the published hash of bytes: the second half of a pair seeds the hash of the first. -/
def Key.value : Key → Nat
  | .str s => lookup2 1972 s
  | .cstr mem => lookup2 1972 (cText mem)
  | .pair a b => lookup2 b.value (fourBytes a.value)

/-- The same texts in the same places; whether they are `std::string` or C strings is left open. -/
def Key.Alike : Key → Key → Prop
  | .pair a b, .pair c d => a.Alike c ∧ b.Alike d
  | .pair _ _, _ => False
  | _, .pair _ _ => False
  | .str s, .str t => s = t
  | .str s, .cstr t => s = cText t
  | .cstr s, .str t => cText s = t
  | .cstr s, .cstr t => cText s = cText t

/-! ## Integers -/

/-- C225: the hash of an unsigned number of at most four bytes is the number. -/
theorem hash_small_value {w : Nat} (hw : w ≤ 32) (v : BitVec w) : (hashSmall v).toNat = v.toNat := by
  have h : 2 ^ w ≤ 2 ^ 32 := Nat.pow_le_pow_right (by decide) hw
  have := v.isLt
  rw [hashSmall, BitVec.toNat_setWidth]
  exact Nat.mod_eq_of_lt (by omega)

/-- C225: two values of one integer type of at most four bytes, signed or not, never share a hash. -/
theorem hash_small_injective {w : Nat} (hw : w ≤ 32) (v u : BitVec w) (h : hashSmall v = hashSmall u) : v = u := by
  apply BitVec.eq_of_toNat_eq
  rw [← hash_small_value hw v, ← hash_small_value hw u, h]

example : hashSmall (200 : BitVec 8) = 200 ∧ hashSmall (-1 : BitVec 16) = 65535 := by decide

/-- C225: the same number in two types hashes alike when it is not negative and neither type has eight bytes. Missing: negative numbers and types of eight bytes. -/
theorem hash_same_number_partial {w x : Nat} (hw : w ≤ 32) (hx : x ≤ 32) (v : BitVec w) (u : BitVec x) (hv : 0 ≤ v.toInt)
    (h : v.toInt = u.toInt) : hashSmall v = hashSmall u := by
  apply BitVec.eq_of_toNat_eq
  rw [hash_small_value hw, hash_small_value hx]
  have e : ∀ {n : Nat} (y : BitVec n), 0 ≤ y.toInt → y.toInt = y.toNat := by
    intro n y hy
    have := y.isLt
    rw [BitVec.toInt_eq_toNat_cond] at hy ⊢
    split at hy
    · rename_i hlt; rw [if_pos hlt]
    · omega
  have e1 := e v hv
  have e2 := e u (by omega)
  omega

example : hashSmall (100 : BitVec 8) = hashSmall (100 : BitVec 32) := hash_same_number_partial (by decide) (by decide) _ _ (by decide) (by decide)

/-- C225 is false of negative numbers, of types of eight bytes, and of the same bits read with or without a sign: -1 as `int8_t`, as `int16_t` and as `int32_t`, and 5 in four and eight bytes. -/
theorem hash_same_number_false :
    ((-1 : BitVec 8).toInt = -1 ∧ (-1 : BitVec 16).toInt = -1 ∧ (-1 : BitVec 32).toInt = -1) ∧ hashSmall (-1 : BitVec 8) ≠ hashSmall (-1 : BitVec 16) ∧
      hashSmall (-1 : BitVec 16) ≠ hashSmall (-1 : BitVec 32) ∧ hashSmall (5 : BitVec 32) ≠ hashLong 5 := by decide

/-- C225 is false of types of eight bytes: small numbers collide; so do the addresses of objects. -/
theorem hash_long_injective_false : hashLong 107310 = hashLong 140082 ∧
    pointerHash 0x0000000A0000000A = pointerHash 0x0000000900000009 := by decide

/-- C225: an integer of eight bytes, and a pointer, has the third word of the published mixer on its halves and 1972. -/
theorem hash_long_value (v : BitVec 64) :
    (hashLong v).toNat = (lookup2Mix (v.toNat % 2 ^ 32, v.toNat / 2 ^ 32, 1972)).2.2 ∧ pointerHash v = hashLong v :=
  ⟨(mix_is_published 0 0 1972 v).2, rfl⟩

/-! ## Strings and pairs -/

theorem strlen_text : ∀ (mem : List Byte), 0 ∈ mem → strlen mem = .ok (cText mem).length
  | [], h => by cases h
  | b :: bs, h => by
    by_cases hb : b = 0
    · simp [strlen, cText, hb]
    · have h' : 0 ∈ bs := by
        rcases List.mem_cons.1 h with e | e
        · exact absurd e.symm hb
        · exact e
      have ih := strlen_text bs h'
      simp only [cText] at ih
      simp [strlen, cText, hb, ih]

theorem strlen_ub : ∀ (mem : List Byte), 0 ∉ mem → strlen mem = .ub
  | [], _ => rfl
  | b :: bs, h => by
    have hb : b ≠ 0 := fun e => h (by simp [e])
    have ih := strlen_ub bs (fun e => h (List.mem_cons_of_mem _ e))
    simp [strlen, hb, ih]

theorem wordBytes_four (f : W) : wordBytes f = fourBytes f.toNat := rfl

theorem cstr_hash (mem : List Byte) (h : 0 ∈ mem) : hashType (.cstr mem) = hashType (.str (cText mem)) := by
  have e : cText mem ++ mem.dropWhile (· ≠ 0) = mem := List.takeWhile_append_dropWhile
  have := (bobJenkinsHash_in_bounds 1972 (cText mem) (mem.dropWhile (· ≠ 0))).2.2
  rw [e] at this
  simp only [hashType, strlen_text mem h]
  exact this

/-- C225: the value of every string, C string and pair, by the published function; no byte behind the texts matters. -/
theorem hash_key_value : ∀ (k : Key), k.Good → ∃ w, hashType k = .ok w ∧ w.toNat = k.value
  | .str s, h => bobJenkinsHash_published 1972 s h
  | .cstr mem, h => by
    obtain ⟨w, h1, h2⟩ := bobJenkinsHash_published 1972 (cText mem) h.2
    exact ⟨w, (cstr_hash mem h.1).trans h1, h2⟩
  | .pair a b, h => by
    obtain ⟨f, f1, f2⟩ := hash_key_value a h.1
    obtain ⟨s, s1, s2⟩ := hash_key_value b h.2
    obtain ⟨w, h1, h2⟩ := bobJenkinsHash_published s (wordBytes f) (by show 4 < 4294967296; decide)
    refine ⟨w, ?_, ?_⟩
    · simp only [hashType, f1, s1]; exact h1
    · rw [h2, wordBytes_four, f2, s2]; rfl

example : ∃ w, hashType (.pair (.cstr [104, 105, 0, 7]) (.str [1, 0, 2])) = .ok w ∧ w.toNat = Key.value (.pair (.cstr [104, 105, 0, 7]) (.str [1, 0, 2])) :=
  hash_key_value _ ⟨⟨by decide, by decide⟩, show 3 < 2 ^ 32 by decide⟩

/-- C225: the same texts hash alike, whether held as `std::string` or as C strings, and whatever lies behind them. -/
theorem hash_alike : ∀ (k l : Key), k.Alike l → k.Good → l.Good → hashType k = hashType l
  | .pair a b, .pair c d, h, hk, hl => by
    simp only [hashType, hash_alike a c h.1 hk.1 hl.1, hash_alike b d h.2 hk.2 hl.2]
  | .str s, .str t, h, _, _ => by rw [show s = t from h]
  | .str s, .cstr t, h, _, hl => by rw [show s = cText t from h]; exact (cstr_hash t hl.1).symm
  | .cstr s, .str t, h, hk, _ => by rw [← show cText s = t from h]; exact cstr_hash s hk.1
  | .cstr s, .cstr t, h, hk, hl => by rw [cstr_hash s hk.1, cstr_hash t hl.1, show cText s = cText t from h]
  | .pair _ _, .str _, h, _, _ => h.elim
  | .pair _ _, .cstr _, h, _, _ => h.elim
  | .str _, .pair _ _, h, _, _ => h.elim
  | .cstr _, .pair _ _, h, _, _ => h.elim

example : hashType (.pair (.cstr [104, 0, 9]) (.str [1])) = hashType (.pair (.str [104]) (.cstr [1, 0])) :=
  hash_alike _ _ ⟨rfl, rfl⟩ ⟨⟨by decide, by decide⟩, show 1 < 2 ^ 32 by decide⟩ ⟨show 1 < 2 ^ 32 by decide, ⟨by decide, by decide⟩⟩

/-- C225: a C string that does not end is the only thing `hashType` is undefined on. -/
theorem hash_key_ub : (∀ mem, 0 ∉ mem → hashType (.cstr mem) = .ub) ∧
    ∀ a b, hashType a ≠ .ub → hashType b ≠ .ub → hashType (.pair a b) ≠ .ub := by
  constructor
  · intro mem h
    simp only [hashType, strlen_ub mem h]
    rfl
  · intro a b ha hb
    simp only [hashType]
    cases h1 : hashType a with
    | ub => exact absurd h1 ha
    | abort => intro h; cases h
    | ok f =>
      cases h2 : hashType b with
      | ub => exact absurd h2 hb
      | abort => intro h; cases h
      | ok s => exact (bobJenkinsHash_in_bounds s (wordBytes f) []).1

example : hashType (.cstr [104, 105]) = .ub := hash_key_ub.1 _ (by decide)

/-- C225 is false of a string with a zero in it: the C string taken from it hashes otherwise. And strings of four letters, `ejvg` and `ebac`, collide, and with them all pairs that have them for a half. -/
theorem hash_key_injective_false :
    hashType (.str [97, 0, 98]) ≠ hashType (.cstr [97, 0, 98, 0]) ∧ hashType (.str [101, 106, 118, 103]) = hashType (.str [101, 98, 97, 99]) ∧
      ∀ k, hashType (.pair (.str [101, 106, 118, 103]) k) = hashType (.pair (.str [101, 98, 97, 99]) k) := by
  have e : hashType (.str [101, 106, 118, 103]) = hashType (.str [101, 98, 97, 99]) := by
    simp only [hashType]; decide
  refine ⟨?_, e, fun k => ?_⟩
  · simp only [hashType]; decide
  · simp only [hashType] at e ⊢
    rw [e]

end Verif.HashFn
