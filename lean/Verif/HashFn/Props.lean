import Verif.HashFn.Lemmas
import Verif.HashFn.Published

/-! # Properties of the hash functions (C53, C54, C68, C69) -/

namespace Verif.HashFn

/-- C53: the mixing step is one-to-one and onto on triples of words. -/
theorem mix_bijective :
    (∀ a b c a' b' c', mix a b c = mix a' b' c' → a = a' ∧ b = b' ∧ c = c') ∧
    (∀ x y z, ∃ a b c, mix a b c = (x, y, z)) := by
  refine ⟨fun a b c a' b' c' h => ?_, fun x y z => ⟨_, _, _, mix_unmix x y z⟩⟩
  have e := unmix_mix a b c
  rw [h, unmix_mix a' b' c'] at e
  simp only [Prod.mk.injEq] at e
  exact ⟨e.1.symm, e.2.1.symm, e.2.2.symm⟩

example : mix 1 2 3 ≠ mix 1 2 4 := by decide

/-- C68 is false: with two of the three words fixed, the returned word repeats. -/
theorem mix3_not_injective :
    mix3 107310 0 1972 = mix3 140082 0 1972 ∧ mix3 0 391 1972 = mix3 0 13567 1972 ∧ mix3 0 0 68574 = mix3 0 0 83022 := by
  decide

/-- C68, what does hold: two inputs with the same hash differ in one of the two words that are thrown
away. Missing: distinct hashes. -/
theorem mix3_distinct_partial (a b c a' b' c' : W) (h : mix3 a b c = mix3 a' b' c')
    (h1 : (mix a b c).1 = (mix a' b' c').1) (h2 : (mix a b c).2.1 = (mix a' b' c').2.1) : a = a' ∧ b = b' ∧ c = c' :=
  mix_bijective.1 a b c a' b' c' (Prod.ext h1 (Prod.ext h2 h))

example : mix3 107310 0 1972 = mix3 140082 0 1972 ∧ (mix 107310 0 1972).1 ≠ (mix 140082 0 1972).1 := by decide

/-- The 64-bit hash mixes the low half, the high half and the seed. -/
theorem mixULL_halves (v : BitVec 64) (p : W) :
    mixULL v p = mix3 (BitVec.ofNat 32 v.toNat) (BitVec.ofNat 32 (v.toNat / 4294967296)) p := by
  have hmask : (0xFFFFFFFF#64).toNat = 2 ^ 32 - 1 := rfl
  unfold mixULL
  congr 1
  · apply BitVec.eq_of_toNat_eq
    rw [BitVec.toNat_setWidth, BitVec.toNat_and, hmask, Nat.and_two_pow_sub_one_eq_mod, BitVec.toNat_ofNat, Nat.mod_mod]
  · apply BitVec.eq_of_toNat_eq
    rw [BitVec.toNat_setWidth, BitVec.toNat_and, hmask, Nat.and_two_pow_sub_one_eq_mod, BitVec.toNat_ofNat, Nat.mod_mod,
      BitVec.toNat_ushiftRight, Nat.shiftRight_eq_div_pow]

example : mixULL 0x0000000200000001#64 3 = mix3 1 2 3 := by decide

/-- C54: below 2^32 bytes the hash is the block-by-block hash of exactly the bytes given. -/
theorem bobJenkinsHash_spec (seed : W) (k : List Byte) (h : k.length < 4294967296) :
    bobJenkinsHash seed k k.length = .ok (hashState seed k k.length).c := by
  have e : k.length % 4294967296 = k.length := Nat.mod_eq_of_lt h
  rw [bobJenkinsHash, bobState_ok seed k k.length (by rw [e]; exact Nat.le_refl _), e, List.take_length]
  rfl

/-- C76: the value is that of the published function (`lookup2`, written without any definition of the model). -/
theorem bobJenkinsHash_published (seed : W) (k : List Byte) (h : k.length < 4294967296) :
    ∃ w, bobJenkinsHash seed k k.length = .ok w ∧ w.toNat = lookup2 seed.toNat k :=
  ⟨_, bobJenkinsHash_spec seed k h, hash_published seed k⟩

/-- C76 for three words and for a 64-bit value. -/
theorem mix_is_published (a b c : W) (v : BitVec 64) :
    (mix3 a b c).toNat = (lookup2Mix (a.toNat, b.toNat, c.toNat)).2.2 ∧
      (mixULL v c).toNat = (lookup2Mix (v.toNat % 2 ^ 32, v.toNat / 2 ^ 32, c.toNat)).2.2 := by
  have key : ∀ a b c : W, (mix3 a b c).toNat = (lookup2Mix (a.toNat, b.toNat, c.toNat)).2.2 := by
    intro a b c
    have := congrArg (fun t => t.2.2) (mix_published ⟨a, b, c⟩)
    exact this
  refine ⟨key a b c, ?_⟩
  have hv := v.isLt
  rw [mixULL_halves, key, BitVec.toNat_ofNat, BitVec.toNat_ofNat, Nat.mod_eq_of_lt (a := v.toNat / 4294967296) (by omega)]

example : ∃ w, bobJenkinsHash 1972 [104, 101, 108, 108, 111] 5 = .ok w ∧ w.toNat = lookup2 1972 [104, 101, 108, 108, 111] :=
  bobJenkinsHash_published 1972 [104, 101, 108, 108, 111] (by decide)

example : bobJenkinsHash 1972 [104, 101, 108, 108, 111] 5 = .ok (hashState 1972 [104, 101, 108, 108, 111] 5).c :=
  bobJenkinsHash_spec 1972 [104, 101, 108, 108, 111] (by decide)

/-- C54: no byte outside the buffer is read, whatever its length, and what lies behind it is irrelevant. -/
theorem bobJenkinsHash_in_bounds (seed : W) (k behind : List Byte) :
    bobJenkinsHash seed k k.length ≠ .ub ∧ bobJenkinsHash seed k k.length ≠ .abort ∧
      bobJenkinsHash seed (k ++ behind) k.length = bobJenkinsHash seed k k.length := by
  have hm : k.length % 4294967296 ≤ k.length := Nat.mod_le _ _
  rw [bobJenkinsHash, bobJenkinsHash, bobState_ok seed k k.length hm,
    bobState_ok seed (k ++ behind) k.length (by rw [List.length_append]; omega), List.take_append_of_le_length hm]
  exact ⟨(by intro h; cases h), (by intro h; cases h), rfl⟩

/-- C54 is not the whole story at 2^32 bytes and more: only the first `length mod 2^32` bytes count, so
the other bytes do not influence the hash at all. -/
theorem long_buffers_are_cut (seed : W) (k : List Byte) :
    bobJenkinsHash seed k k.length =
      bobJenkinsHash seed (k.take (k.length % 4294967296)) (k.length % 4294967296) := by
  have hm : k.length % 4294967296 ≤ k.length := Nat.mod_le _ _
  rw [bobJenkinsHash, bobJenkinsHash, bobState_ok seed k k.length hm, bobState_ok seed (k.take _) _ (by
    rw [List.length_take]; omega), Nat.mod_mod, List.take_take, Nat.min_self]
  have : BitVec.ofNat 32 k.length = BitVec.ofNat 32 (k.length % 4294967296) := by
    apply BitVec.eq_of_toNat_eq
    rw [BitVec.toNat_ofNat, BitVec.toNat_ofNat]
    omega
  simp only [hashState, finish, this]

/-- Every buffer of exactly 2^32 bytes hashes like the empty one. -/
theorem four_gigabytes_hash_alike (seed : W) (k : List Byte) (h : k.length = 4294967296) :
    bobJenkinsHash seed k k.length = bobJenkinsHash seed [] 0 := by
  rw [long_buffers_are_cut, h]
  rfl

example : ∃ k : List Byte, k.length = 4294967296 := ⟨List.replicate 4294967296 0, List.length_replicate⟩

theorem word_inj {x y : Nat} (hx : x < 4294967296) (hy : y < 4294967296) (h : BitVec.ofNat 32 x = BitVec.ofNat 32 y) : x = y := by
  have := congrArg BitVec.toNat h
  rw [BitVec.toNat_ofNat, BitVec.toNat_ofNat] at this
  omega

theorem le32_inj {k l : List Byte} {i : Nat} (h : le32 k i = le32 l i) :
    ∀ j, j < 4 → k.getD (i + j) 0 = l.getD (i + j) 0 := by
  have a0 := (k.getD i 0).isLt; have a1 := (k.getD (i + 1) 0).isLt
  have a2 := (k.getD (i + 2) 0).isLt; have a3 := (k.getD (i + 3) 0).isLt
  have b0 := (l.getD i 0).isLt; have b1 := (l.getD (i + 1) 0).isLt
  have b2 := (l.getD (i + 2) 0).isLt; have b3 := (l.getD (i + 3) 0).isLt
  have e := word_inj (by omega) (by omega) h
  intro j hj
  apply Fin.ext
  rcases (show j = 0 ∨ j = 1 ∨ j = 2 ∨ j = 3 by omega) with rfl | rfl | rfl | rfl
  · rw [Nat.add_zero]; omega
  · omega
  · omega
  · omega

theorem add_cancel (x y z : W) (h : x + y = x + z) : y = z := by
  have := congrArg (fun w => w - x) h
  simpa [BitVec.add_comm x, BitVec.add_sub_cancel] using this

/-- C69: two different keys of fewer than 12 bytes never lead to the same internal state before the
final word is picked, so the length counts as well as the bytes. -/
theorem short_keys_distinct (seed : W) (k l : List Byte) (hk : k.length < 12) (hl : l.length < 12)
    (h : bobState seed k k.length = bobState seed l l.length) : k = l := by
  have ek : k.length % 4294967296 = k.length := Nat.mod_eq_of_lt (by omega)
  have el : l.length % 4294967296 = l.length := Nat.mod_eq_of_lt (by omega)
  rw [bobState_ok seed k _ (by omega), bobState_ok seed l _ (by omega), ek, el, List.take_length, List.take_length] at h
  have h := Res.ok.inj h
  have zk : k.length / 12 = 0 := by omega
  have zl : l.length / 12 = 0 := by omega
  simp only [hashState, zk, zl, absorb, Nat.mul_zero, List.drop_zero, finish] at h
  have h := mixAbc_inj h
  simp only [Abc.mk.injEq] at h
  obtain ⟨ha, hb, hc⟩ := h
  have ha := le32_inj (add_cancel _ _ _ ha)
  have hb := le32_inj (add_cancel _ _ _ hb)
  rw [BitVec.add_assoc, BitVec.add_assoc] at hc
  have hc := add_cancel _ _ _ hc
  rw [List.take_of_length_le (by omega), List.take_of_length_le (by omega)] at hc
  simp only [le32, shl_ofNat, ← BitVec.ofNat_add] at hc
  rw [getD_none (k := k) (i := 8 + 3) (by omega), getD_none (k := l) (i := 8 + 3) (by omega)] at hc
  have a0 := (k.getD 8 0).isLt; have a1 := (k.getD (8 + 1) 0).isLt; have a2 := (k.getD (8 + 2) 0).isLt
  have b0 := (l.getD 8 0).isLt; have b1 := (l.getD (8 + 1) 0).isLt; have b2 := (l.getD (8 + 2) 0).isLt
  simp only [show (0 : Byte).val = 0 from rfl] at hc
  have e := word_inj (by omega) (by omega) hc
  have hlen : k.length = l.length := by omega
  apply List.ext_getElem? 
  intro i
  by_cases hi : i < k.length
  · have hg : k.getD i 0 = l.getD i 0 := by
      rcases (show i < 4 ∨ (4 ≤ i ∧ i < 8) ∨ i = 8 ∨ i = 9 ∨ i = 10 by omega) with h1 | h1 | h1 | h1 | h1
      · have := ha i h1; simpa using this
      · have := hb (i - 4) (by omega)
        rwa [show 4 + (i - 4) = i by omega] at this
      · subst h1; exact Fin.ext (by omega)
      · subst h1; exact Fin.ext (by have : (k.getD (8 + 1) 0).val = (l.getD (8 + 1) 0).val := by omega
                                    exact this)
      · subst h1; exact Fin.ext (by have : (k.getD (8 + 2) 0).val = (l.getD (8 + 2) 0).val := by omega
                                    exact this)
    rw [List.getD_eq_getElem?_getD, List.getD_eq_getElem?_getD, List.getElem?_eq_getElem hi,
      List.getElem?_eq_getElem (by omega)] at hg
    rw [List.getElem?_eq_getElem hi, List.getElem?_eq_getElem (by omega)]
    exact congrArg some hg
  · rw [List.getElem?_eq_none (by omega), List.getElem?_eq_none (by omega)]

example : bobState 1972 [97] 1 ≠ bobState 1972 [97, 0] 2 := by decide

theorem absorb_state_inj : ∀ (n : Nat) (k : List Byte) (s t : Abc), absorb n k s = absorb n k t → s = t
  | 0, _, _, _, h => h
  | n + 1, k, s, t, h => by
    have h := mixAbc_inj (absorb_state_inj n _ _ _ h)
    simp only [Abc.mk.injEq] at h
    obtain ⟨h1, h2, h3⟩ := h
    cases s; cases t
    simp only [BitVec.add_comm _ (le32 _ _)] at h1 h2 h3
    simp only [Abc.mk.injEq]
    exact ⟨add_cancel _ _ _ h1, add_cancel _ _ _ h2, add_cancel _ _ _ h3⟩

theorem absorb_add : ∀ (n m : Nat) (k : List Byte) (s : Abc),
    absorb (n + m) k s = absorb m (k.drop (12 * n)) (absorb n k s)
  | 0, m, k, s => by simp [absorb]
  | n + 1, m, k, s => by
    rw [show n + 1 + m = (n + m) + 1 by omega]
    simp only [absorb]
    rw [absorb_add n m, List.drop_drop, show 12 + 12 * n = 12 * (n + 1) by omega]

/-- C69: keys of the same length that differ in exactly one aligned 12-byte block lead to different
internal states, whatever comes before and after. -/
theorem one_block_distinct (seed : W) (p b b' q : List Byte) (hp : p.length % 12 = 0) (hb : b.length = 12)
    (hb' : b'.length = 12) (hne : b ≠ b') (hlen : (p ++ b ++ q).length < 4294967296) :
    bobState seed (p ++ b ++ q) (p ++ b ++ q).length ≠ bobState seed (p ++ b' ++ q) (p ++ b' ++ q).length := by
  have hL : (p ++ b' ++ q).length = (p ++ b ++ q).length := by simp only [List.length_append, hb, hb']
  have hm : (p ++ b ++ q).length % 4294967296 = (p ++ b ++ q).length := Nat.mod_eq_of_lt hlen
  rw [hL, bobState_ok seed _ _ (by omega), bobState_ok seed _ _ (by omega), hm, List.take_length,
    List.take_of_length_le (Nat.le_of_eq hL)]
  intro h
  have h := Res.ok.inj h
  apply hne
  obtain ⟨n, hn⟩ : ∃ n, p.length = 12 * n := ⟨p.length / 12, by omega⟩
  obtain ⟨m, hm2⟩ : ∃ m, (p ++ b ++ q).length / 12 = n + (1 + m) :=
    ⟨(p ++ b ++ q).length / 12 - n - 1, by simp only [List.length_append, hb, hn]; omega⟩
  -- split off the common start, the block and the common rest
  have split : ∀ c : List Byte, c.length = 12 → hashState seed (p ++ c ++ q) (p ++ b ++ q).length =
      finish (p ++ b ++ q).length (q.drop (12 * m)) (absorb m q (absorb 1 (c ++ q) (absorb n p ⟨0x9e3779b9#32, 0x9e3779b9#32, seed⟩))) := by
    intro c hc
    have hl : (p ++ c ++ q).length = (p ++ b ++ q).length := by simp only [List.length_append, hb, hc]
    unfold hashState
    rw [hl, hm2, absorb_add n (1 + m), absorb_add 1 m]
    have e1 : (p ++ c ++ q).drop (12 * n) = c ++ q := by
      rw [List.append_assoc, ← hn, List.drop_left]
    have e2 : (c ++ q).drop (12 * 1) = q := by
      rw [show 12 * 1 = c.length by omega, List.drop_left]
    have e3 : absorb n (p ++ c ++ q) = absorb n p := by
      funext s
      rw [← absorb_take n (p ++ c ++ q) (12 * n) s (Nat.le_refl _), List.append_assoc, ← hn, List.take_left]
    have e4 : (p ++ c ++ q).drop (12 * (n + (1 + m))) = q.drop (12 * m) := by
      rw [show 12 * (n + (1 + m)) = 12 * n + (12 * 1 + 12 * m) by omega, ← List.drop_drop, e1, ← List.drop_drop, e2]
    rw [e1, e2, e3, e4]
  rw [split b hb, split b' hb'] at h
  have h := mixAbc_inj h
  simp only [Abc.mk.injEq] at h
  obtain ⟨h1, h2, h3⟩ := h
  have hs : absorb m q (absorb 1 (b ++ q) (absorb n p ⟨0x9e3779b9#32, 0x9e3779b9#32, seed⟩)) =
      absorb m q (absorb 1 (b' ++ q) (absorb n p ⟨0x9e3779b9#32, 0x9e3779b9#32, seed⟩)) := by
    generalize absorb m q (absorb 1 (b ++ q) _) = u at *
    generalize absorb m q (absorb 1 (b' ++ q) _) = v at *
    cases u; cases v
    simp only at h1 h2 h3
    rw [BitVec.add_comm _ (le32 _ _), BitVec.add_comm _ (le32 _ _)] at h1 h2
    rw [BitVec.add_assoc, BitVec.add_assoc, BitVec.add_comm _ (_ + _), BitVec.add_comm _ (_ + _)] at h3
    simp only [Abc.mk.injEq]
    exact ⟨add_cancel _ _ _ h1, add_cancel _ _ _ h2, add_cancel _ _ _ h3⟩
  have hs := absorb_state_inj m q _ _ hs
  simp only [absorb] at hs
  have hs := mixAbc_inj hs
  simp only [Abc.mk.injEq] at hs
  obtain ⟨g1, g2, g3⟩ := hs
  have g1 := le32_inj (add_cancel _ _ _ g1)
  have g2 := le32_inj (add_cancel _ _ _ g2)
  have g3 := le32_inj (add_cancel _ _ _ g3)
  apply List.ext_getElem (by omega)
  intro i hi hi'
  have hg : (b ++ q).getD i 0 = (b' ++ q).getD i 0 := by
    rcases (show i < 4 ∨ (4 ≤ i ∧ i < 8) ∨ (8 ≤ i ∧ i < 12) by omega) with h1 | h1 | h1
    · have := g1 i h1; simpa using this
    · have := g2 (i - 4) (by omega)
      rwa [show 4 + (i - 4) = i by omega] at this
    · have := g3 (i - 8) (by omega)
      rwa [show 8 + (i - 8) = i by omega] at this
  rw [List.getD_eq_getElem?_getD, List.getD_eq_getElem?_getD, List.getElem?_append_left hi, List.getElem?_append_left hi',
    List.getElem?_eq_getElem hi, List.getElem?_eq_getElem hi'] at hg
  exact hg

example : bobState 0 ([] ++ [1, 2, 3, 4, 5, 6, 7, 8, 9, 10, 11, 12] ++ [5]) 13 ≠
    bobState 0 ([] ++ [1, 2, 3, 4, 5, 6, 7, 8, 9, 10, 11, 13] ++ [5]) 13 := by decide

/-- Keys of the same length that agree up to the last, incomplete block and differ there. -/
theorem tail_distinct (seed : W) (p t t' : List Byte) (hp : p.length % 12 = 0) (ht : t.length < 12)
    (ht' : t'.length = t.length) (hne : t ≠ t') (hlen : (p ++ t).length < 4294967296) :
    bobState seed (p ++ t) (p ++ t).length ≠ bobState seed (p ++ t') (p ++ t').length := by
  have hL : (p ++ t').length = (p ++ t).length := by simp only [List.length_append, ht']
  have hm : (p ++ t).length % 4294967296 = (p ++ t).length := Nat.mod_eq_of_lt hlen
  rw [hL, bobState_ok seed _ _ (by omega), bobState_ok seed _ _ (by omega), hm, List.take_length,
    List.take_of_length_le (Nat.le_of_eq hL)]
  intro h
  have h := Res.ok.inj h
  apply hne
  obtain ⟨n, hn⟩ : ∃ n, p.length = 12 * n := ⟨p.length / 12, by omega⟩
  have split : ∀ c : List Byte, c.length = t.length → hashState seed (p ++ c) (p ++ t).length =
      finish (p ++ t).length c (absorb n p ⟨0x9e3779b9#32, 0x9e3779b9#32, seed⟩) := by
    intro c hc
    unfold hashState
    have hd : (p ++ c).length / 12 = n := by rw [List.length_append, hc, hn]; omega
    rw [hd]
    have e1 : (p ++ c).drop (12 * n) = c := by rw [← hn, List.drop_left]
    rw [e1, ← absorb_take n (p ++ c) (12 * n) _ (Nat.le_refl _), ← hn, List.take_left]
  rw [split t rfl, split t' ht'] at h
  have h := mixAbc_inj h
  simp only [Abc.mk.injEq] at h
  obtain ⟨ha, hb, hc⟩ := h
  have g1 := le32_inj (add_cancel _ _ _ ha)
  have g2 := le32_inj (add_cancel _ _ _ hb)
  have hc := add_cancel _ _ _ hc
  rw [List.take_of_length_le (by omega), List.take_of_length_le (by omega)] at hc
  simp only [le32, shl_ofNat] at hc
  rw [getD_none (k := t) (i := 8 + 3) (by omega), getD_none (k := t') (i := 8 + 3) (by omega)] at hc
  have a0 := (t.getD 8 0).isLt; have a1 := (t.getD (8 + 1) 0).isLt; have a2 := (t.getD (8 + 2) 0).isLt
  have b0 := (t'.getD 8 0).isLt; have b1 := (t'.getD (8 + 1) 0).isLt; have b2 := (t'.getD (8 + 2) 0).isLt
  simp only [show (0 : Byte).val = 0 from rfl] at hc
  have e := word_inj (by omega) (by omega) hc
  apply List.ext_getElem (by omega)
  intro i hi hi'
  have hg : t.getD i 0 = t'.getD i 0 := by
    rcases (show i < 4 ∨ (4 ≤ i ∧ i < 8) ∨ i = 8 ∨ i = 9 ∨ i = 10 by omega) with h1 | h1 | h1 | h1 | h1
    · have := g1 i h1; simpa using this
    · have := g2 (i - 4) (by omega)
      rwa [show 4 + (i - 4) = i by omega] at this
    · subst h1; exact Fin.ext (by omega)
    · subst h1; exact Fin.ext (by have : (t.getD (8 + 1) 0).val = (t'.getD (8 + 1) 0).val := by omega
                                  exact this)
    · subst h1; exact Fin.ext (by have : (t.getD (8 + 2) 0).val = (t'.getD (8 + 2) 0).val := by omega
                                  exact this)
  rw [List.getD_eq_getElem?_getD, List.getD_eq_getElem?_getD, List.getElem?_eq_getElem hi,
    List.getElem?_eq_getElem hi'] at hg
  exact hg

/-- C70 below 2^32 bytes: changing one byte changes the state the hash is taken from.
Missing: longer keys. -/
theorem every_byte_counts_partial (seed : W) (k : List Byte) (hlen : k.length < 4294967296) (i : Nat) (hi : i < k.length)
    (x : Byte) (hx : x ≠ k[i]) :
    bobState seed (k.set i x) (k.set i x).length ≠ bobState seed k k.length := by
  have hset : ∀ (l : List Byte) (j : Nat) (hj : j < l.length), x ≠ l[j] → l.set j x ≠ l := by
    intro l j hj hne e
    have := congrArg (fun m : List Byte => m[j]?) e
    simp only [List.getElem?_set_self hj, List.getElem?_eq_getElem hj, Option.some.injEq] at this
    exact hne this
  -- the aligned start of the block that holds byte `i`
  have hs : 12 * (i / 12) ≤ k.length := by omega
  by_cases hfull : 12 * (i / 12) + 12 ≤ k.length
  · have hk : k = k.take (12 * (i / 12)) ++ (k.drop (12 * (i / 12))).take 12 ++ k.drop (12 * (i / 12) + 12) := by
      rw [List.append_assoc, ← List.drop_drop, List.take_append_drop, List.take_append_drop]
    have hl1 : (k.take (12 * (i / 12))).length = 12 * (i / 12) := by rw [List.length_take]; omega
    have hl2 : ((k.drop (12 * (i / 12))).take 12).length = 12 := by rw [List.length_take, List.length_drop]; omega
    have hk' : k.set i x = k.take (12 * (i / 12)) ++ ((k.drop (12 * (i / 12))).take 12).set (i % 12) x ++
        k.drop (12 * (i / 12) + 12) := by
      conv => lhs; rw [hk]
      rw [List.append_assoc, List.set_append_right _ _ (by omega), List.set_append_left _ _ (by omega), hl1,
        ← List.append_assoc]
      congr 3; omega
    have hd := one_block_distinct seed (k.take (12 * (i / 12))) (((k.drop (12 * (i / 12))).take 12).set (i % 12) x)
      ((k.drop (12 * (i / 12))).take 12) (k.drop (12 * (i / 12) + 12)) (by rw [hl1]; omega)
      (by rw [List.length_set]; exact hl2) hl2
      (hset _ _ (by omega) (by
        rw [List.getElem_take, List.getElem_drop]
        have : 12 * (i / 12) + i % 12 = i := by omega
        simp only [this]; exact hx)) (by rw [← hk', List.length_set]; exact hlen)
    rw [← hk', ← hk] at hd
    exact hd
  · have hk : k = k.take (12 * (i / 12)) ++ k.drop (12 * (i / 12)) := (List.take_append_drop _ _).symm
    have hl1 : (k.take (12 * (i / 12))).length = 12 * (i / 12) := by rw [List.length_take]; omega
    have hk' : k.set i x = k.take (12 * (i / 12)) ++ (k.drop (12 * (i / 12))).set (i % 12) x := by
      conv => lhs; rw [hk]
      rw [List.set_append_right _ _ (by omega), hl1]
      congr 2; omega
    have hd := tail_distinct seed (k.take (12 * (i / 12))) ((k.drop (12 * (i / 12))).set (i % 12) x)
      (k.drop (12 * (i / 12))) (by rw [hl1]; omega)
      (by rw [List.length_set, List.length_drop]; omega) (by rw [List.length_set])
      (hset _ _ (by rw [List.length_drop]; omega) (by
        rw [List.getElem_drop]
        have : 12 * (i / 12) + i % 12 = i := by omega
        simp only [this]; exact hx)) (by rw [← hk', List.length_set]; exact hlen)
    rw [← hk', ← hk] at hd
    exact hd

example : (7 : Byte) ≠ ([1, 2, 3] : List Byte)[1] := by decide

end Verif.HashFn
