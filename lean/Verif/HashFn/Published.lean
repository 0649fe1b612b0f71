import Verif.HashFn.Lemmas

/-! # The model's hash against the published one -/

namespace Verif.HashFn

/-- The three words as numbers. -/
def nums (s : Abc) : Nat × Nat × Nat := (s.a.toNat, s.b.toNat, s.c.toNat)

/-- One round on the words. -/
def rr (n : Nat) (s : Abc) : Abc := ⟨s.b, s.c, (s.a - s.b - s.c) ^^^ (s.c >>> n)⟩
def rl (n : Nat) (s : Abc) : Abc := ⟨s.b, s.c, (s.a - s.b - s.c) ^^^ (s.c <<< n)⟩

theorem round_right (s : Abc) (n : Nat) : nums (rr n s) = lookup2Round (nums s) (false, n) := by
  obtain ⟨x, y, z⟩ := s
  have hx := x.isLt; have hy := y.isLt; have hz := z.isLt
  simp only [rr, nums, lookup2Round, Bool.false_eq_true, if_false, Prod.mk.injEq, true_and]
  rw [BitVec.toNat_xor, BitVec.toNat_ushiftRight, Nat.shiftRight_eq_div_pow, BitVec.toNat_sub, BitVec.toNat_sub]
  congr 1
  omega

theorem round_left (s : Abc) (n : Nat) : nums (rl n s) = lookup2Round (nums s) (true, n) := by
  obtain ⟨x, y, z⟩ := s
  have hx := x.isLt; have hy := y.isLt; have hz := z.isLt
  simp only [rl, nums, lookup2Round, if_true, Prod.mk.injEq, true_and]
  rw [BitVec.toNat_xor, BitVec.toNat_shiftLeft, Nat.shiftLeft_eq, BitVec.toNat_sub, BitVec.toNat_sub]
  congr 1
  omega

theorem mix_rounds (s : Abc) :
    mixAbc s = rr 15 (rl 10 (rr 3 (rr 5 (rl 16 (rr 12 (rr 13 (rl 8 (rr 13 s)))))))) := by
  cases s
  rfl

theorem mix_published (s : Abc) : nums (mixAbc s) = lookup2Mix (nums s) := by
  rw [mix_rounds, round_right, round_left, round_right, round_right, round_left, round_right, round_right, round_left,
    round_right]
  simp only [lookup2Mix, lookup2Rounds, List.foldl]

attribute [local irreducible] lookup2Mix mixAbc

theorem leValue_take4 (l : List Byte) : leValue (l.take 4) =
    (l.getD 0 0).val + 256 * (l.getD 1 0).val + 65536 * (l.getD 2 0).val + 16777216 * (l.getD 3 0).val := by
  match l with
  | [] => rfl
  | [a] => simp [leValue]
  | [a, b] => simp [leValue]
  | [a, b, c] => simp [leValue]; omega
  | a :: b :: c :: d :: l => simp [leValue]; omega

theorem leValue_take3 (l : List Byte) : leValue (l.take 3) =
    (l.getD 0 0).val + 256 * (l.getD 1 0).val + 65536 * (l.getD 2 0).val := by
  match l with
  | [] => rfl
  | [a] => simp [leValue]
  | [a, b] => simp [leValue]
  | a :: b :: c :: l => simp [leValue]; omega

theorem le32_value (k : List Byte) (i : Nat) : (le32 k i).toNat = leValue ((k.drop i).take 4) % 2 ^ 32 := by
  rw [leValue_take4, le32, BitVec.toNat_ofNat]
  simp only [getD_drop, Nat.add_zero]

theorem add_published (s : Abc) (x y z : W) (x' y' z' : Nat) (hx : x.toNat = x' % 2 ^ 32) (hy : y.toNat = y' % 2 ^ 32)
    (hz : z.toNat = z' % 2 ^ 32) : nums ⟨s.a + x, s.b + y, s.c + z⟩ = addWords (nums s) x' y' z' := by
  simp only [nums, addWords, BitVec.toNat_add, hx, hy, hz, Nat.add_mod_mod]

theorem le32_value0 (k : List Byte) : (le32 k 0).toNat = leValue (k.take 4) % 2 ^ 32 := by
  rw [le32_value, List.drop_zero]

theorem block_published (k : List Byte) (s : Abc) :
    nums (mixAbc ⟨s.a + le32 k 0, s.b + le32 k 4, s.c + le32 k 8⟩) = lookup2Block k (nums s) := by
  rw [mix_published, add_published s _ _ _ _ _ _ (le32_value0 k) (le32_value k 4) (le32_value k 8), lookup2Block]

theorem absorb_published (n : Nat) : ∀ (k : List Byte) (s : Abc), nums (absorb n k s) = forBlocks lookup2Block n k (nums s) := by
  induction n with
  | zero => intro k s; rfl
  | succ n ih =>
    intro k s
    rw [absorb, forBlocks, ih, block_published]

theorem tail_published (n : Nat) (t : List Byte) : (BitVec.ofNat 32 n + (le32 (t.take 11) 8 <<< 8)).toNat =
      (n + 256 * leValue ((t.drop 8).take 3)) % 2 ^ 32 := by
  rw [BitVec.toNat_add, BitVec.toNat_ofNat, BitVec.toNat_shiftLeft, Nat.shiftLeft_eq, le32_value]
  have : ((t.take 11).drop 8).take 4 = (t.drop 8).take 3 := by
    rw [List.drop_take, List.take_take, show min 4 (11 - 8) = 3 from rfl]
  rw [this]
  omega

theorem finish_published (n : Nat) (t : List Byte) (s : Abc) : nums (finish n t s) =
    lookup2Mix (addWords (nums s) (leValue (t.take 4)) (leValue ((t.drop 4).take 4))
      (n + 256 * leValue ((t.drop 8).take 3))) := by
  rw [finish, mix_published, BitVec.add_assoc]
  exact congrArg lookup2Mix (add_published s _ _ _ _ _ _ (le32_value0 t) (le32_value t 4) (tail_published n t))

theorem hash_published (seed : W) (k : List Byte) : (hashState seed k k.length).c.toNat = lookup2 seed.toNat k := by
  have h := absorb_published (k.length / 12) k ⟨0x9e3779b9#32, 0x9e3779b9#32, seed⟩
  have f := finish_published k.length (k.drop (12 * (k.length / 12)))
    (absorb (k.length / 12) k ⟨0x9e3779b9#32, 0x9e3779b9#32, seed⟩)
  rw [h] at f
  exact congrArg (fun s => s.2.2) f

end Verif.HashFn
