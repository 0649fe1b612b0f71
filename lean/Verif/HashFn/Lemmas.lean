import Verif.HashFn.Spec

namespace Verif.HashFn

theorem undo_step (x p q r : W) : (((x - p - q) ^^^ r) ^^^ r) + q + p = x := by
  rw [BitVec.xor_assoc, BitVec.xor_self, BitVec.xor_zero, BitVec.sub_add_cancel, BitVec.sub_add_cancel]

theorem redo_step (x p q r : W) : (((x ^^^ r) + q + p) - p - q) ^^^ r = x := by
  rw [BitVec.add_sub_cancel, BitVec.add_sub_cancel, BitVec.xor_assoc, BitVec.xor_self, BitVec.xor_zero]

/-- The inverse of the mixing step. -/
def unmix (a b c : W) : W × W × W :=
  let c := (c ^^^ (b >>> 15)) + b + a
  let b := (b ^^^ (a <<< 10)) + a + c
  let a := (a ^^^ (c >>> 3)) + c + b
  let c := (c ^^^ (b >>> 5)) + b + a
  let b := (b ^^^ (a <<< 16)) + a + c
  let a := (a ^^^ (c >>> 12)) + c + b
  let c := (c ^^^ (b >>> 13)) + b + a
  let b := (b ^^^ (a <<< 8)) + a + c
  let a := (a ^^^ (c >>> 13)) + c + b
  (a, b, c)

theorem unmix_mix (a b c : W) : unmix (mix a b c).1 (mix a b c).2.1 (mix a b c).2.2 = (a, b, c) := by
  simp only [mix, unmix, undo_step]

theorem mix_unmix (a b c : W) : mix (unmix a b c).1 (unmix a b c).2.1 (unmix a b c).2.2 = (a, b, c) := by
  simp only [mix, unmix, redo_step]

theorem mixAbc_inj {s t : Abc} (h : mixAbc s = mixAbc t) : s = t := by
  have e1 := unmix_mix s.a s.b s.c
  have e2 := unmix_mix t.a t.b t.c
  simp only [mixAbc, Abc.mk.injEq] at h
  rw [h.1, h.2.1, h.2.2, e2] at e1
  cases s; cases t
  simp only [Prod.mk.injEq] at e1
  simp only [Abc.mk.injEq]
  exact ⟨e1.1.symm, e1.2.1.symm, e1.2.2.symm⟩

theorem rd_ok {k : List Byte} {i : Nat} (h : i < k.length) : rd k i = .ok (BitVec.ofNat 32 (k.getD i 0).val) := by
  rw [rd, List.getElem?_eq_getElem h, List.getD_eq_getElem?_getD, List.getElem?_eq_getElem h]
  rfl

theorem shl_ofNat (x n : Nat) : (BitVec.ofNat 32 x) <<< n = BitVec.ofNat 32 (2 ^ n * x) := by
  apply BitVec.eq_of_toNat_eq
  rw [BitVec.toNat_shiftLeft, BitVec.toNat_ofNat, BitVec.toNat_ofNat, Nat.shiftLeft_eq, Nat.mod_mul_mod, Nat.mul_comm]

theorem word_ok {k : List Byte} {i : Nat} (h : i + 3 < k.length) : word k i = .ok (le32 k i) := by
  simp only [word, rd_ok (show i < k.length by omega), rd_ok (show i + 1 < k.length by omega),
    rd_ok (show i + 2 < k.length by omega), rd_ok h, Res.bind_ok, Res.pure_eq, le32, shl_ofNat, ← BitVec.ofNat_add]

theorem getD_drop (k : List Byte) (n i : Nat) : (k.drop n).getD i 0 = k.getD (n + i) 0 := by
  simp only [List.getD_eq_getElem?_getD, List.getElem?_drop]

theorem le32_drop (k : List Byte) (n i : Nat) : le32 (k.drop n) i = le32 k (n + i) := by
  simp only [le32, getD_drop, Nat.add_assoc]

theorem getD_none {k : List Byte} {i : Nat} (h : k.length ≤ i) : k.getD i 0 = 0 := by
  rw [List.getD_eq_getElem?_getD, List.getElem?_eq_none h]; rfl

theorem blocks_ok (k : List Byte) : ∀ (fuel pos len : Nat) (s : Abc), len < fuel → pos + len ≤ k.length →
    blocks k fuel pos len s =
      .ok (pos + 12 * (len / 12), len - 12 * (len / 12), absorb (len / 12) (k.drop pos) s)
  | 0, _, _, _, h, _ => by omega
  | fuel + 1, pos, len, s, h, hk => by
    unfold blocks
    by_cases hl : 12 ≤ len
    · rw [if_pos hl, word_ok (by omega), Res.bind_ok, word_ok (by omega), Res.bind_ok, word_ok (by omega), Res.bind_ok,
        blocks_ok k fuel (pos + 12) (len - 12) _ (by omega) (by omega)]
      have e : len / 12 = (len - 12) / 12 + 1 := by omega
      rw [e]
      simp only [absorb, List.drop_drop, le32_drop, Nat.add_zero]
      congr 2
      · omega
      · congr 1; omega
    · rw [if_neg hl]
      have e : len / 12 = 0 := by omega
      rw [e]; rfl

theorem caseAdd_ok (k : List Byte) (pos len n sh : Nat) (acc : W) (h : pos + len ≤ k.length) (hn : 0 < n) :
    caseAdd k pos len n sh acc = .ok (acc + BitVec.ofNat 32 (2 ^ sh * (((k.drop pos).take len).getD (n - 1) 0).val)) := by
  unfold caseAdd
  split
  · rename_i hl
    rw [rd_ok (by omega), Res.bind_ok, shl_ofNat]
    have : ((k.drop pos).take len).getD (n - 1) 0 = k.getD (pos + (n - 1)) 0 := by
      rw [List.getD_eq_getElem?_getD, List.getElem?_take_of_lt (by omega), List.getElem?_drop,
        ← List.getD_eq_getElem?_getD]
    rw [this]
    rfl
  · rename_i hl
    rw [getD_none (by rw [List.length_take]; omega)]
    simp

theorem add4 (x : W) (p q r t : Nat) :
    x + BitVec.ofNat 32 p + BitVec.ofNat 32 q + BitVec.ofNat 32 r + BitVec.ofNat 32 t = x + BitVec.ofNat 32 (t + r + q + p) := by
  simp only [BitVec.ofNat_add]
  ac_rfl

theorem tailA_ok (k : List Byte) (pos len : Nat) (a : W) (h : pos + len ≤ k.length) :
    tailA k pos len a = .ok (a + le32 ((k.drop pos).take len) 0) := by
  simp only [tailA, caseAdd_ok k pos len _ _ _ h, Nat.zero_lt_succ, Res.bind_ok, add4]
  simp only [le32, Nat.reduceAdd, Nat.reduceSub, Nat.reducePow, Nat.one_mul]

theorem tailB_ok (k : List Byte) (pos len : Nat) (b : W) (h : pos + len ≤ k.length) :
    tailB k pos len b = .ok (b + le32 ((k.drop pos).take len) 4) := by
  simp only [tailB, caseAdd_ok k pos len _ _ _ h, Nat.zero_lt_succ, Res.bind_ok, add4]
  simp only [le32, Nat.reduceAdd, Nat.reduceSub, Nat.reducePow, Nat.one_mul]

theorem add3 (x : W) (p q r : Nat) :
    x + BitVec.ofNat 32 p + BitVec.ofNat 32 q + BitVec.ofNat 32 r = x + BitVec.ofNat 32 (r + q + p) := by
  simp only [BitVec.ofNat_add]
  ac_rfl

theorem tailC_ok (k : List Byte) (pos len : Nat) (c : W) (h : pos + len ≤ k.length) (hl : len < 12) :
    tailC k pos len c = .ok (c + (le32 (((k.drop pos).take len).take 11) 8 <<< 8)) := by
  simp only [tailC, caseAdd_ok k pos len _ _ _ h, Nat.zero_lt_succ, Res.bind_ok, add3, le32, shl_ofNat]
  have e : ((k.drop pos).take len).take 11 = (k.drop pos).take len := List.take_of_length_le (by rw [List.length_take]; omega)
  rw [e, getD_none (i := 8 + 3) (by rw [List.length_take]; omega)]
  simp only [show 11 - 1 = 10 from rfl, show 10 - 1 = 9 from rfl, show 9 - 1 = 8 from rfl]
  congr 3
  simp only [show (0 : Byte).val = 0 from rfl, Nat.reduceAdd]
  omega

theorem absorb_take : ∀ (n : Nat) (k : List Byte) (m : Nat) (s : Abc), 12 * n ≤ m → absorb n (k.take m) s = absorb n k s
  | 0, _, _, _, _ => rfl
  | n + 1, k, m, s, h => by
    have e : ∀ i, i < 12 → (k.take m).getD i 0 = k.getD i 0 := by
      intro i hi
      rw [List.getD_eq_getElem?_getD, List.getElem?_take_of_lt (by omega), ← List.getD_eq_getElem?_getD]
    simp only [absorb]
    have h0 : le32 (k.take m) 0 = le32 k 0 := by simp only [le32]; rw [e _ (by omega), e _ (by omega), e _ (by omega), e _ (by omega)]
    have h4 : le32 (k.take m) 4 = le32 k 4 := by simp only [le32]; rw [e _ (by omega), e _ (by omega), e _ (by omega), e _ (by omega)]
    have h8 : le32 (k.take m) 8 = le32 k 8 := by simp only [le32]; rw [e _ (by omega), e _ (by omega), e _ (by omega), e _ (by omega)]
    rw [h0, h4, h8, List.drop_take, absorb_take n (k.drop 12) (m - 12) _ (by omega)]

theorem bobState_ok (seed : W) (k : List Byte) (length : Nat) (h : length % 4294967296 ≤ k.length) :
    bobState seed k length = .ok (hashState seed (k.take (length % 4294967296)) length) := by
  unfold bobState
  simp only
  generalize hL : length % 4294967296 = L at h ⊢
  rw [blocks_ok k (L + 1) 0 L _ (by omega) (by omega), Res.bind_ok]
  dsimp only
  have hp : 0 + 12 * (L / 12) + (L - 12 * (L / 12)) ≤ k.length := by omega
  rw [tailC_ok k _ _ _ hp (by omega), Res.bind_ok, tailB_ok k _ _ _ hp, Res.bind_ok, tailA_ok k _ _ _ hp, Res.bind_ok]
  have hlen : (k.take L).length = L := by rw [List.length_take]; omega
  simp only [hashState, finish, hlen, Res.pure_eq, List.drop_take, Nat.zero_add, List.drop_zero]
  rw [absorb_take _ _ _ _ (by omega)]

end Verif.HashFn
