import Verif.Rng.Model
import Verif.Rng.Spec

namespace Verif.Rng

open Spec (MTRecurrence SeededFrom StartsWith Tempered)

theorem rd_ok {l : List W} {i : Nat} {x : W} (h : l[i]? = some x) : rd l i = .ok x := by simp [rd, h]

theorem wr_ok {l : List W} {i : Nat} (h : i < l.length) (x : W) : wr l i x = .ok (l.set i x) := by simp [wr, h]

/-- The array while it is being replaced in place: the first `k` words are from the next block. -/
def Win (X : Nat → W) (base k : Nat) (l : List W) : Prop :=
  l.length = 624 ∧ ∀ i, i < 624 → l[i]? = some (X (base + i + if i < k then 624 else 0))

theorem y_bits (a b : W) (n : Nat) :
    ((a &&& 0x80000000#32) ||| (b &&& 0x7fffffff#32)).getLsbD n = if n = 31 then a.getLsbD 31 else b.getLsbD n := by
  by_cases hn : n < 32
  · have hall : ∀ n : Fin 32, (0x80000000#32).getLsbD n.val = decide (n.val = 31) ∧
        (0x7fffffff#32).getLsbD n.val = decide (n.val ≠ 31) := by decide +kernel
    have ⟨h1, h2⟩ := hall ⟨n, hn⟩
    simp only at h1 h2
    rw [BitVec.getLsbD_or, BitVec.getLsbD_and, BitVec.getLsbD_and, h1, h2]
    by_cases h : n = 31 <;> simp [h]
  · rw [BitVec.getLsbD_of_ge _ _ (by omega), BitVec.getLsbD_of_ge b _ (by omega), if_neg (by omega)]

theorem and_one (y : W) : (y &&& 1#32 = 0#32) ↔ y.getLsbD 0 = false := by
  constructor
  · intro h
    have := congrArg (fun v => v.getLsbD 0) h
    simpa using this
  · intro h
    apply BitVec.eq_of_getLsbD_eq
    intro i hi
    rw [BitVec.getLsbD_and]
    by_cases h0 : i = 0
    · subst h0; rw [h]; rfl
    · have : (1#32).getLsbD i = false := by simp [BitVec.getLsbD_one, h0]
      simp [this]

/-- What the code computes is the recurrence. -/
theorem rec_eq {X : Nat → W} (h : MTRecurrence X) (n : Nat) :
    X (n + 624) = X (n + 397) ^^^ (((X n &&& 0x80000000#32) ||| (X (n + 1) &&& 0x7fffffff#32)) >>> 1) ^^^
      (if ((X n &&& 0x80000000#32) ||| (X (n + 1) &&& 0x7fffffff#32)) &&& 1#32 = 0#32 then 0#32
        else 0x9908b0df#32) := by
  obtain ⟨y, hy, he⟩ := h n
  have : y = (X n &&& 0x80000000#32) ||| (X (n + 1) &&& 0x7fffffff#32) := by
    apply BitVec.eq_of_getLsbD_eq
    intro i _
    rw [hy, y_bits]
  subst this
  rw [he]
  simp only [and_one]
  congr 1
  cases ((X n &&& 0x80000000#32) ||| (X (n + 1) &&& 0x7fffffff#32)).getLsbD 0 <;> rfl

theorem twist_win {X : Nat → W} (hX : MTRecurrence X) {base kk k1 km : Nat} {l : List W} (hw : Win X base kk l)
    (hk : kk < 624) (h1 : (kk < 623 ∧ k1 = kk + 1) ∨ (kk = 623 ∧ k1 = 0))
    (hm : (kk < 227 ∧ km = kk + 397) ∨ (227 ≤ kk ∧ km = kk - 227)) :
    ∃ l', twist l kk k1 km = .ok l' ∧ Win X base (kk + 1) l' := by
  obtain ⟨hl, hw⟩ := hw
  have ra : l[kk]? = some (X (base + kk)) := by rw [hw kk hk, if_neg (by omega)]; rfl
  have rb : l[k1]? = some (X (base + kk + 1)) := by
    rw [hw k1 (by omega)]
    rcases h1 with ⟨_, rfl⟩ | ⟨rfl, rfl⟩
    · rw [if_neg (by omega)]; congr 2
    · rw [if_pos (by omega)]
  have rc : l[km]? = some (X (base + kk + 397)) := by
    rw [hw km (by omega)]
    rcases hm with ⟨_, hm⟩ | ⟨h227, hm⟩
    · rw [if_neg (by omega), hm, Nat.add_zero, Nat.add_assoc base kk 397]
    · have e : base + km + 624 = base + kk + 397 := by omega
      rw [if_pos (by omega), e]
  unfold twist
  rw [rd_ok ra, Res.bind_ok, rd_ok rb, Res.bind_ok, rd_ok rc, Res.bind_ok, wr_ok (by omega)]
  refine ⟨_, rfl, by simpa using hl, ?_⟩
  intro i hi
  rw [← rec_eq hX, List.getElem?_set]
  by_cases h : kk = i
  · subst h
    rw [if_pos rfl, if_pos (by omega), if_pos (by omega)]
  · rw [if_neg h, hw i hi]
    by_cases h' : i < kk
    · rw [if_pos h', if_pos (by omega)]
    · rw [if_neg h', if_neg (by omega)]

theorem fold_win {X : Nat → W} {base : Nat} (f : List W → Nat → Res (List W)) :
    ∀ (n a : Nat) (l : List W), Win X base a l →
      (∀ (kk : Nat) (l : List W), a ≤ kk → kk < a + n → Win X base kk l → ∃ l', f l kk = .ok l' ∧ Win X base (kk + 1) l') →
      ∃ l', (List.range' a n).foldlM f l = .ok l' ∧ Win X base (a + n) l'
  | 0, a, l, hw, _ => ⟨l, rfl, hw⟩
  | n + 1, a, l, hw, hf => by
    obtain ⟨l1, e1, w1⟩ := hf a l (Nat.le_refl _) (by omega) hw
    obtain ⟨l2, e2, w2⟩ := fold_win f n (a + 1) l1 w1 (fun kk l h1 h2 => hf kk l (by omega) (by omega))
    refine ⟨l2, ?_, by rwa [show a + (n + 1) = a + 1 + n by omega]⟩
    rw [List.range'_succ, List.foldlM_cons, e1, Res.bind_ok, e2]

theorem reload_win {X : Nat → W} (hX : MTRecurrence X) {base : Nat} {s : MT} (hw : Win X base 0 s.mt) :
    ∃ l, reloadArray s = .ok ⟨l, 0⟩ ∧ Win X (base + 624) 0 l := by
  obtain ⟨l1, e1, w1⟩ := fold_win (fun l kk => twist l kk (kk + 1) (kk + 397)) 227 0 s.mt hw
    (fun kk l _ h2 h => twist_win hX h (by omega) (Or.inl ⟨by omega, rfl⟩) (Or.inl ⟨by omega, rfl⟩))
  obtain ⟨l2, e2, w2⟩ := fold_win (fun l kk => twist l kk (kk + 1) (kk - 227)) 396 227 l1 (by simpa using w1)
    (fun kk l h1 h2 h => twist_win hX h (by omega) (Or.inl ⟨by omega, rfl⟩) (Or.inr ⟨by omega, rfl⟩))
  obtain ⟨l3, e3, w3⟩ := twist_win (kk := 623) (k1 := 0) (km := 396) hX (by simpa using w2) (by omega)
    (Or.inr ⟨rfl, rfl⟩) (Or.inr ⟨by omega, rfl⟩)
  refine ⟨l3, ?_, w3.1, ?_⟩
  · unfold reloadArray
    rw [e1, Res.bind_ok, e2, Res.bind_ok, e3, Res.bind_ok]; rfl
  · intro i hi
    rw [w3.2 i hi, if_pos (by omega), if_neg (by omega)]
    congr 2; omega

/-- The generator stands before word `n` of `X` (which is in the last block at offset `mti`). -/
def At (X : Nat → W) (n : Nat) (s : MT) : Prop := ∃ base, Win X base 0 s.mt ∧ s.mti ≤ 624 ∧ n = base + s.mti

theorem randInt_at {X : Nat → W} (hX : MTRecurrence X) {n : Nat} {s : MT} (h : At X n s) :
    ∃ s', randInt s = .ok (s', temper (X n)) ∧ At X (n + 1) s' := by
  obtain ⟨base, hw, hle, rfl⟩ := h
  unfold randInt reloadIfDone
  by_cases hm : 624 ≤ s.mti
  · obtain ⟨l, e, w⟩ := reload_win hX hw
    rw [if_pos hm, e, Res.bind_ok]
    have hr := w.2 0 (by omega)
    rw [if_neg (by omega)] at hr
    rw [rd_ok hr, Res.bind_ok]
    refine ⟨⟨l, 1⟩, ?_, base + 624, w, by simp, ?_⟩
    · have : s.mti = 624 := by omega
      rw [this]; rfl
    · simp only; omega
  · rw [if_neg hm, Res.bind_ok]
    have hr := hw.2 s.mti (by omega)
    rw [if_neg (by omega)] at hr
    rw [rd_ok hr, Res.bind_ok]
    exact ⟨⟨s.mt, s.mti + 1⟩, rfl, base, hw, by simp only; omega, by simp only; omega⟩

/-- `n` successive calls. -/
def draws : Nat → MT → Res (MT × List W)
  | 0, s => .ok (s, [])
  | n + 1, s => do
    let (s, x) ← randInt s
    let (s, xs) ← draws n s
    pure (s, x :: xs)

theorem draws_at {X : Nat → W} (hX : MTRecurrence X) : ∀ (m n : Nat) (s : MT), At X n s →
    ∃ s', draws m s = .ok (s', (List.range' n m).map (fun i => temper (X i))) ∧ At X (n + m) s'
  | 0, n, s, h => ⟨s, rfl, h⟩
  | m + 1, n, s, h => by
    obtain ⟨s1, e1, h1⟩ := randInt_at hX h
    obtain ⟨s2, e2, h2⟩ := draws_at hX m (n + 1) s1 h1
    refine ⟨s2, ?_, by rwa [show n + (m + 1) = n + 1 + m by omega]⟩
    unfold draws
    rw [e1, Res.bind_ok]
    dsimp only
    rw [e2, Res.bind_ok, List.range'_succ, List.map_cons]; rfl

/-! ## Seeding -/

theorem init_fold {X : Nat → W} {seed : W} (h : SeededFrom seed X) : ∀ (n a : Nat) (l : List W), 1 ≤ a →
    a + n = 624 → l.length = 624 → (∀ i, i < a → l[i]? = some (X i)) →
    ∃ l', (List.range' a n).foldlM initStep l = .ok l' ∧ StartsWith l' X
  | 0, a, l, _, ha, hl, hp => ⟨l, rfl, hl, fun i hi => hp i (by omega)⟩
  | n + 1, a, l, h1, ha, hl, hp => by
    obtain ⟨l2, e2, w2⟩ := init_fold h n (a + 1) (l.set a (X a)) (by omega) (by omega) (by simpa using hl) (by
      intro i hi
      rw [List.getElem?_set]
      by_cases hia : a = i
      · subst hia; rw [if_pos rfl, if_pos (by omega)]
      · rw [if_neg hia]; exact hp i (by omega))
    refine ⟨l2, ?_, w2⟩
    rw [List.range'_succ, List.foldlM_cons]
    unfold initStep
    rw [rd_ok (hp (a - 1) (by omega)), Res.bind_ok, wr_ok (by omega), Res.bind_ok]
    have := h.2 (a - 1) (by omega)
    rw [show a - 1 + 1 = a by omega] at this
    rw [show seedNext (X (a - 1)) a = X a from this.symm]
    exact e2

theorem init_starts {X : Nat → W} {seed : W} (h : SeededFrom seed X) {old : Mem} (ho : old.length = 624) :
    ∃ l, init old seed = .ok ⟨l, 624⟩ ∧ StartsWith l X := by
  obtain ⟨l, e, w⟩ := init_fold h 623 1 (old.set 0 seed) (by omega) (by omega) (by simpa using ho) (by
    intro i hi
    have : i = 0 := by omega
    subst this
    rw [List.getElem?_set, if_pos rfl, if_pos (by omega), h.1])
  refine ⟨l, ?_, w⟩
  unfold init
  rw [wr_ok (by omega), Res.bind_ok, e, Res.bind_ok]; rfl

theorem at_of_starts {X : Nat → W} {l : List W} (h : StartsWith l X) : At X 624 ⟨l, 624⟩ :=
  ⟨0, ⟨h.1, fun i hi => by rw [if_neg (by omega)]; simpa using h.2 i hi⟩, by simp, by simp⟩

/-! ## The sequence exists -/

/-- The sequence grown from a state array, one word at a time. -/
def grow (l : List W) (n : Nat) : W :=
  if n < 624 then l.getD n 0
  else
    let y := (grow l (n - 624) &&& 0x80000000#32) ||| (grow l (n - 623) &&& 0x7fffffff#32)
    grow l (n - 227) ^^^ (y >>> 1) ^^^ (if y.getLsbD 0 then 0x9908B0DF#32 else 0#32)
termination_by n

theorem grow_rec (l : List W) : MTRecurrence (grow l) := by
  intro n
  refine ⟨(grow l n &&& 0x80000000#32) ||| (grow l (n + 1) &&& 0x7fffffff#32), fun b => y_bits _ _ _, ?_⟩
  conv => lhs; unfold grow
  rw [if_neg (by omega)]
  simp only [show n + 624 - 624 = n by omega, show n + 624 - 623 = n + 1 by omega, show n + 624 - 227 = n + 397 by omega]

theorem grow_starts {l : List W} (h : l.length = 624) : StartsWith l (grow l) := by
  refine ⟨h, fun i hi => ?_⟩
  unfold grow
  rw [if_pos hi, List.getD_eq_getElem?_getD, List.getElem?_eq_getElem (by omega)]
  rfl

theorem rec_unique {X Y : Nat → W} (hX : MTRecurrence X) (hY : MTRecurrence Y) (h : ∀ i, i < 624 → X i = Y i) :
    ∀ n, X n = Y n := by
  intro n
  induction n using Nat.strongRecOn with
  | _ n ih =>
    by_cases hn : n < 624
    · exact h n hn
    · have e1 := rec_eq hX (n - 624)
      have e2 := rec_eq hY (n - 624)
      rw [ih (n - 624) (by omega), ih (n - 624 + 1) (by omega), ih (n - 624 + 397) (by omega), ← e2] at e1
      rwa [show n - 624 + 624 = n by omega] at e1

/-- The seed's words. -/
def seedWords (seed : W) : Nat → W
  | 0 => seed
  | i + 1 => seedNext (seedWords seed i) (i + 1)

theorem seeded_exists (seed : W) : ∃ X, SeededFrom seed X ∧ MTRecurrence X := by
  have hlen : ((List.range 624).map (seedWords seed)).length = 624 := by
    rw [List.length_map, List.length_range]
  have hs := grow_starts hlen
  have hv : ∀ i, i < 624 → grow ((List.range 624).map (seedWords seed)) i = seedWords seed i := by
    intro i hi
    have := hs.2 i hi
    rw [List.getElem?_map, List.getElem?_range hi] at this
    simpa using this.symm
  refine ⟨grow ((List.range 624).map (seedWords seed)), ⟨?_, ?_⟩, grow_rec _⟩
  · rw [hv 0 (by omega)]; rfl
  · intro i hi
    rw [hv (i + 1) (by omega), hv i (by omega)]; rfl

end Verif.Rng
