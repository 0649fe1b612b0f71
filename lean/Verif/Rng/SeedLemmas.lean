import Verif.Rng.Bits
import Mathlib.Data.Fintype.Pigeonhole
import Mathlib.Data.Fintype.Pi
import Mathlib.Data.Fintype.Prod

/-! # Mersenne Twister: what the results tell about the state -/

namespace Verif.Rng

open Spec (MTRecurrence SeededFrom StartsWith Tempered)

/-- The 19937 bits of state from word `a` of one sequence and word `b` of another on are the same. -/
def SameWords (X Y : Nat → W) (a b : Nat) : Prop := (X a).getLsbD 31 = (Y b).getLsbD 31 ∧ ∀ i, i < 623 → X (a + 1 + i) = Y (b + 1 + i)

theorem mix_inj {y z : W} (h : (y >>> 1) ^^^ (if y.getLsbD 0 then 0x9908B0DF#32 else 0#32) = (z >>> 1) ^^^ (if z.getLsbD 0 then 0x9908B0DF#32 else 0#32)) : y = z := by
  have h31 : ∀ v : W, ((v >>> 1) ^^^ (if v.getLsbD 0 then 0x9908B0DF#32 else 0#32)).getLsbD 31 = v.getLsbD 0 := by
    intro v
    rw [BitVec.getLsbD_xor, BitVec.getLsbD_ushiftRight, BitVec.getLsbD_of_ge v _ (by omega)]
    cases v.getLsbD 0 <;> rfl
  have h0 : y.getLsbD 0 = z.getLsbD 0 := by rw [← h31 y, ← h31 z, h]
  rw [h0] at h
  have h' := (BitVec.xor_left_inj _).1 h
  apply BitVec.eq_of_getLsbD_eq
  intro i hi
  cases i with
  | zero => exact h0
  | succ i =>
    have := congrArg (fun v => v.getLsbD i) h'
    simp only [BitVec.getLsbD_ushiftRight] at this
    rwa [Nat.add_comm 1 i] at this

theorem same_next {X Y : Nat → W} (hX : MTRecurrence X) (hY : MTRecurrence Y) {a b : Nat} (h : SameWords X Y a b) : SameWords X Y (a + 1) (b + 1) := by
  obtain ⟨y, hy, he⟩ := hX a
  obtain ⟨z, hz, hf⟩ := hY b
  have hyz : y = z := by
    apply BitVec.eq_of_getLsbD_eq
    intro i _
    rw [hy, hz]
    split
    · exact h.1
    · have := h.2 0 (by omega)
      rw [Nat.add_zero, Nat.add_zero] at this
      rw [this]
  subst hyz
  have h397 : X (a + 397) = Y (b + 397) := by
    have := h.2 396 (by omega)
    rwa [show a + 1 + 396 = a + 397 by omega, show b + 1 + 396 = b + 397 by omega] at this
  refine ⟨?_, fun i hi => ?_⟩
  · have := h.2 0 (by omega)
    rw [Nat.add_zero, Nat.add_zero] at this
    rw [this]
  · by_cases hi' : i = 622
    · subst hi'
      rw [show a + 1 + 1 + 622 = a + 624 by omega, show b + 1 + 1 + 622 = b + 624 by omega, he, hf, h397]
    · have := h.2 (i + 1) (by omega)
      rwa [show a + 1 + (i + 1) = a + 1 + 1 + i by omega, show b + 1 + (i + 1) = b + 1 + 1 + i by omega] at this

theorem same_prev {X Y : Nat → W} (hX : MTRecurrence X) (hY : MTRecurrence Y) {a b : Nat} (h : SameWords X Y (a + 1) (b + 1)) : SameWords X Y a b := by
  obtain ⟨y, hy, he⟩ := hX a
  obtain ⟨z, hz, hf⟩ := hY b
  have h1 : X (a + 624) = Y (b + 624) := by
    have := h.2 622 (by omega)
    rwa [show a + 1 + 1 + 622 = a + 624 by omega, show b + 1 + 1 + 622 = b + 624 by omega] at this
  have h2 : X (a + 397) = Y (b + 397) := by
    have := h.2 395 (by omega)
    rwa [show a + 1 + 1 + 395 = a + 397 by omega, show b + 1 + 1 + 395 = b + 397 by omega] at this
  have hyz : y = z := by
    rw [he, hf, h2, BitVec.xor_assoc, BitVec.xor_assoc] at h1
    exact mix_inj ((BitVec.xor_right_inj _).1 h1)
  subst hyz
  refine ⟨?_, fun i hi => ?_⟩
  · have e1 := hy 31
    have e2 := hz 31
    rw [if_pos rfl] at e1 e2
    rw [← e1, ← e2]
  · cases i with
    | zero =>
      rw [Nat.add_zero, Nat.add_zero]
      apply BitVec.eq_of_getLsbD_eq
      intro j _
      by_cases h31 : j = 31
      · subst h31; exact h.1
      · have e1 := hy j
        have e2 := hz j
        rw [if_neg h31] at e1 e2
        rw [← e1, ← e2]
    | succ i =>
      have := h.2 i (by omega)
      rwa [show a + 1 + (i + 1) = a + 1 + 1 + i by omega, show b + 1 + (i + 1) = b + 1 + 1 + i by omega]

theorem same_add {X Y : Nat → W} (hX : MTRecurrence X) (hY : MTRecurrence Y) {a b : Nat} (h : SameWords X Y a b) : ∀ n, SameWords X Y (a + n) (b + n)
  | 0 => h
  | n + 1 => same_next hX hY (same_add hX hY h n)

theorem same_sub {X Y : Nat → W} (hX : MTRecurrence X) (hY : MTRecurrence Y) {a b : Nat} : ∀ n, SameWords X Y (a + n) (b + n) → SameWords X Y a b
  | 0, h => h
  | n + 1, h => same_sub hX hY n (same_prev hX hY h)

theorem seed_inj {s t : W} {X Y : Nat → W} (hs : SeededFrom s X) (ht : SeededFrom t Y) (h : SameWords X Y 0 0) : s = t := by
  have h1 := h.2 0 (by omega)
  rw [show 0 + 1 + 0 = 0 + 1 by omega, hs.2 0 (by omega), ht.2 0 (by omega), hs.1, ht.1] at h1
  have h2 := (BitVec.add_left_inj _).1 h1
  have h3 := congrArg (fun v => 0x9638806d#32 * v) h2
  have hc : 0x9638806d#32 * 1812433253#32 = 1#32 := by decide
  simp only [← BitVec.mul_assoc, hc, BitVec.one_mul] at h3
  exact tri_inj (tri_shr 30 (by omega)) h3

theorem eventually_same {X : Nat → W} (hX : MTRecurrence X) : ∃ p, 0 < p ∧ SameWords X X 0 p := by
  let f : Nat → Bool × (Fin 623 → Fin (2 ^ 32)) := fun n => ((X n).getLsbD 31, fun i => (X (n + 1 + i.val)).toFin)
  obtain ⟨a, b, hab, he⟩ := Finite.exists_ne_map_eq_of_infinite f
  have key : ∀ a b, a < b → f a = f b → ∃ p, 0 < p ∧ SameWords X X 0 p := by
    intro a b hlt he
    have hs : SameWords X X a b := by
      refine ⟨congrArg Prod.fst he, fun i hi => ?_⟩
      have := congrFun (congrArg Prod.snd he) ⟨i, hi⟩
      exact BitVec.eq_of_toFin_eq this
    refine ⟨b - a, by omega, same_sub (a := 0) (b := b - a) hX hX a ?_⟩
    rw [Nat.zero_add, show b - a + a = b by omega]
    exact hs
  rcases Nat.lt_or_gt_of_ne hab with h | h
  · exact key a b h he
  · exact key b a h he.symm

/-! ## Arrays of seeds -/

/-- What round `j` adds (with `n` seeds). -/
def addend (seeds : List W) (j : Nat) : W := seeds.getD (j % seeds.length) 0 + BitVec.ofNat 32 (j % seeds.length)

/-- `f` of the first loop. -/
def scramble (p : W) : W := (p ^^^ (p >>> 30)) * 1664525#32

/-- The words that the first pass of the first loop leaves. -/
def pass (m : Nat → W) (seeds : List W) : Nat → W
  | 0 => m 0
  | i + 1 => (m (i + 1) ^^^ scramble (pass m seeds i)) + addend seeds i

/-- The array in the first pass after `t` rounds. -/
def Passed (m : Nat → W) (seeds : List W) (t : Nat) (l : List W) : Prop :=
  l.length = 624 ∧ ∀ i, i < 624 → l[i]? = some (if i ≤ t then pass m seeds i else m i)

theorem rd_addend {seeds : List W} (hs : seeds ≠ []) (j : Nat) : rd seeds (j % seeds.length) = .ok (seeds.getD (j % seeds.length) 0) := by
  have hp := List.length_pos_iff.2 hs
  have hlt := Nat.mod_lt j hp
  rw [rd_ok (List.getElem?_eq_getElem hlt), List.getD_eq_getElem?_getD, List.getElem?_eq_getElem hlt]
  rfl

theorem next_index {n : Nat} (hn : 0 < n) (j : Nat) : (if n ≤ j % n + 1 then 0 else j % n + 1) = (j + 1) % n := by
  have hlt := Nat.mod_lt j hn
  rw [Nat.add_mod j 1 n]
  split
  · have e : j % n = n - 1 := by omega
    rw [e]
    by_cases h1 : n = 1
    · subst h1; rfl
    · rw [Nat.mod_eq_of_lt (by omega : 1 < n), show n - 1 + 1 = n by omega, Nat.mod_self]
  · rw [Nat.mod_eq_of_lt (by omega : 1 < n), Nat.mod_eq_of_lt (by omega : j % n + 1 < n)]

/-- One round of the first pass. -/
theorem pass_round {m : Nat → W} {seeds : List W} (hs : seeds ≠ []) {t : Nat} (ht : t < 623) {l : List W} (h : Passed m seeds t l) (k : Nat) :
    ∃ l', Passed m seeds (t + 1) l' ∧ arrayLoop1 seeds (k + 1) l (t + 1) (t % seeds.length) =
      (wrap l' (t + 2)).bind fun x => arrayLoop1 seeds k x.1 x.2 ((t + 1) % seeds.length) := by
  have hx := h.2 (t + 1) (by omega)
  have hp := h.2 t (by omega)
  rw [if_neg (by omega)] at hx
  rw [if_pos (Nat.le_refl _)] at hp
  refine ⟨l.set (t + 1) (pass m seeds (t + 1)), ⟨by simpa using h.1, ?_⟩, ?_⟩
  · intro i hi
    rw [List.getElem?_set]
    by_cases hit : t + 1 = i
    · subst hit
      rw [if_pos rfl, if_pos (by have := h.1; omega), if_pos (Nat.le_refl _)]
    · rw [if_neg hit, h.2 i hi]
      by_cases hle : i ≤ t
      · rw [if_pos hle, if_pos (by omega)]
      · rw [if_neg hle, if_neg (by omega)]
  · rw [arrayLoop1, rd_ok hx, Res.bind_ok, Nat.add_sub_cancel, rd_ok hp, Res.bind_ok, rd_addend hs, Res.bind_ok, wr_ok (by have := h.1; omega), Res.bind_ok]
    have e : (m (t + 1) ^^^ (pass m seeds t ^^^ pass m seeds t >>> 30) * 1664525#32) + seeds.getD (t % seeds.length) 0 + BitVec.ofNat 32 (t % seeds.length) = pass m seeds (t + 1) := by
      rw [pass, addend, scramble, BitVec.add_assoc]
    rw [e, next_index (List.length_pos_iff.2 hs)]
    rfl

theorem wrap_no {l : List W} {i : Nat} (h : i < 624) : wrap l i = .ok (l, i) := by
  unfold wrap
  rw [if_neg (by omega)]

theorem pass_loop {m : Nat → W} {seeds : List W} (hs : seeds ≠ []) : ∀ (k t : Nat) (l : List W), t + k = 622 → Passed m seeds t l →
    ∃ l', Passed m seeds 622 l' ∧ arrayLoop1 seeds (k + 2) l (t + 1) (t % seeds.length) = arrayLoop1 seeds 2 l' 623 (622 % seeds.length)
  | 0, t, l, h, hp => by
    have : t = 622 := by omega
    subst this
    exact ⟨l, hp, rfl⟩
  | k + 1, t, l, h, hp => by
    obtain ⟨l1, h1, e1⟩ := pass_round hs (by omega : t < 623) hp (k + 2)
    rw [wrap_no (by omega)] at e1
    obtain ⟨l2, h2, e2⟩ := pass_loop hs k (t + 1) l1 (by omega) h1
    refine ⟨l2, h2, ?_⟩
    rw [show k + 1 + 2 = k + 2 + 1 by omega, e1]
    exact e2

/-- What the first loop leaves with at most 624 seeds. -/
theorem arrayLoop1_result {m : Nat → W} {seeds : List W} (hs : seeds ≠ []) {l : List W} (hl : StartsWith l m) :
    ∃ r, arrayLoop1 seeds 624 l 1 0 = .ok (r, 2) ∧ r.length = 624 ∧ r[0]? = some (pass m seeds 623) ∧
      r[1]? = some ((pass m seeds 1 ^^^ scramble (pass m seeds 623)) + addend seeds 623) ∧ ∀ i, 2 ≤ i → i < 624 → r[i]? = some (pass m seeds i) := by
  have h0 : Passed m seeds 0 l := by
    refine ⟨hl.1, fun i hi => ?_⟩
    rw [hl.2 i hi]
    split
    · have : i = 0 := by omega
      subst this; rfl
    · rfl
  obtain ⟨l1, h1, e1⟩ := pass_loop hs 622 0 l (by omega) h0
  obtain ⟨l2, h2, e2⟩ := pass_round hs (by omega : 622 < 623) h1 1
  have hw : wrap l2 624 = .ok (l2.set 0 (pass m seeds 623), 1) := by
    have := h2.2 623 (by omega)
    rw [if_pos (by omega)] at this
    unfold wrap
    rw [if_pos (Nat.le_refl _), rd_ok this, Res.bind_ok, wr_ok (by have := h2.1; omega), Res.bind_ok]
    rfl
  have hlen := h2.1
  have g1 : (l2.set 0 (pass m seeds 623))[1]? = some (pass m seeds 1) := by
    rw [List.getElem?_set, if_neg (by omega), h2.2 1 (by omega), if_pos (by omega)]
  have g0 : (l2.set 0 (pass m seeds 623))[0]? = some (pass m seeds 623) := by
    rw [List.getElem?_set, if_pos rfl, if_pos (by omega)]
  have e : (pass m seeds 1 ^^^ (pass m seeds 623 ^^^ pass m seeds 623 >>> 30) * 1664525#32) + seeds.getD (623 % seeds.length) 0 + BitVec.ofNat 32 (623 % seeds.length) =
      (pass m seeds 1 ^^^ scramble (pass m seeds 623)) + addend seeds 623 := by
    rw [addend, scramble, BitVec.add_assoc]
  have e3 : arrayLoop1 seeds 1 (l2.set 0 (pass m seeds 623)) 1 (623 % seeds.length) =
      .ok ((l2.set 0 (pass m seeds 623)).set 1 ((pass m seeds 1 ^^^ scramble (pass m seeds 623)) + addend seeds 623), 2) := by
    rw [arrayLoop1, rd_ok g1, Res.bind_ok, rd_ok g0, Res.bind_ok, rd_addend hs, Res.bind_ok, e, wr_ok (by simp; omega), Res.bind_ok, wrap_no (by omega)]
    rfl
  refine ⟨(l2.set 0 (pass m seeds 623)).set 1 ((pass m seeds 1 ^^^ scramble (pass m seeds 623)) + addend seeds 623), ?_, by simpa using hlen, ?_, ?_, ?_⟩
  · rw [Nat.zero_mod] at e1
    rw [e1, e2, hw]
    exact e3
  · rw [List.getElem?_set, if_neg (by omega)]; exact g0
  · rw [List.getElem?_set, if_pos rfl, if_pos (by simp; omega)]
  · intro i h2i hi
    rw [List.getElem?_set, if_neg (by omega), List.getElem?_set, if_neg (by omega), h2.2 i hi, if_pos (by omega)]

/-- Two arrays agree from word 1 on. -/
def AgreeFrom1 (l l' : List W) : Prop := l.length = 624 ∧ l'.length = 624 ∧ ∀ i, 1 ≤ i → i < 624 → l[i]? = l'[i]?

/-- In the second loop, word 0 is a copy of the last when the index is 1. -/
def Copied (i : Nat) (l : List W) : Prop := i = 1 → l[0]? = l[623]?

theorem wrap_copied {l : List W} {i : Nat} (hl : l.length = 624) (h1 : 2 ≤ i) (h2 : i ≤ 624) :
    ∃ l' i', wrap l i = .ok (l', i') ∧ l'.length = 624 ∧ 1 ≤ i' ∧ i' < 624 ∧ Copied i' l' ∧ (i' = if i = 624 then 1 else i) ∧ ∀ j, 1 ≤ j → l'[j]? = l[j]? := by
  unfold wrap
  by_cases h : 624 ≤ i
  · rw [if_pos h, rd_ok (List.getElem?_eq_getElem (by omega : 623 < l.length)), Res.bind_ok, wr_ok (by omega), Res.bind_ok]
    refine ⟨_, 1, rfl, by simpa using hl, by omega, by omega, ?_, by rw [if_pos (by omega)], ?_⟩
    · intro _
      rw [List.getElem?_set, if_pos rfl, if_pos (by omega), List.getElem?_set, if_neg (by omega), List.getElem?_eq_getElem (by omega : 623 < l.length)]
    · intro j hj
      rw [List.getElem?_set, if_neg (by omega)]
  · rw [if_neg h]
    exact ⟨l, i, rfl, hl, by omega, by omega, fun h => by omega, by rw [if_neg (by omega)], fun _ _ => rfl⟩

/-- The second loop loses nothing. -/
theorem arrayLoop2_inj : ∀ (k : Nat) (l l' r r' : List W) (i : Nat), l.length = 624 → l'.length = 624 → 1 ≤ i → i < 624 → Copied i l → Copied i l' →
    arrayLoop2 k l i = .ok r → arrayLoop2 k l' i = .ok r' → AgreeFrom1 r r' → AgreeFrom1 l l'
  | 0, l, l', r, r', i, _, _, _, _, _, _, e, e', h => by
    have h1 : l = r := Res.ok.inj e
    have h2 : l' = r' := Res.ok.inj e'
    rw [h1, h2]; exact h
  | k + 1, l, l', r, r', i, hl, hl', h1, h2, hc, hc', e, e', h => by
    rw [arrayLoop2, rd_ok (List.getElem?_eq_getElem (by omega : i < l.length)), Res.bind_ok,
      rd_ok (List.getElem?_eq_getElem (by omega : i - 1 < l.length)), Res.bind_ok, wr_ok (by omega), Res.bind_ok] at e
    rw [arrayLoop2, rd_ok (List.getElem?_eq_getElem (by omega : i < l'.length)), Res.bind_ok,
      rd_ok (List.getElem?_eq_getElem (by omega : i - 1 < l'.length)), Res.bind_ok, wr_ok (by omega), Res.bind_ok] at e'
    generalize hv : (l[i] ^^^ (l[i - 1] ^^^ l[i - 1] >>> 30) * 1566083941#32) - BitVec.ofNat 32 i = v at e
    generalize hv' : (l'[i] ^^^ (l'[i - 1] ^^^ l'[i - 1] >>> 30) * 1566083941#32) - BitVec.ofNat 32 i = v' at e'
    obtain ⟨l1, i1, w1, a1, b1, c1, d1, f1, g1⟩ := wrap_copied (l := l.set i v) (i := i + 1) (by simpa using hl) (by omega) (by omega)
    obtain ⟨l2, i2, w2, a2, b2, c2, d2, f2, g2⟩ := wrap_copied (l := l'.set i v') (i := i + 1) (by simpa using hl') (by omega) (by omega)
    rw [w1, Res.bind_ok] at e
    rw [w2, Res.bind_ok] at e'
    dsimp only at e e'
    have hi : i2 = i1 := by rw [f1, f2]
    subst hi
    obtain ⟨_, _, hag⟩ := arrayLoop2_inj k l1 l2 r r' i2 a1 a2 b1 c1 d1 d2 e e' h
    have hset : ∀ j, 1 ≤ j → j < 624 → (l.set i v)[j]? = (l'.set i v')[j]? := fun j hj hj' => by rw [← g1 j hj, ← g2 j hj]; exact hag j hj hj'
    have hother : ∀ j, 1 ≤ j → j < 624 → j ≠ i → l[j]? = l'[j]? := by
      intro j hj hj' hne
      have := hset j hj hj'
      rwa [List.getElem?_set, if_neg (fun h => hne h.symm), List.getElem?_set, if_neg (fun h => hne h.symm)] at this
    have hvv : v = v' := by
      have := hset i h1 h2
      rw [List.getElem?_set, if_pos rfl, if_pos (by omega), List.getElem?_set, if_pos rfl, if_pos (by omega)] at this
      exact Option.some.inj this
    have hprev : l[i - 1] = l'[i - 1] := by
      apply Option.some.inj
      rw [← List.getElem?_eq_getElem, ← List.getElem?_eq_getElem]
      by_cases hi1 : i = 1
      · subst hi1
        have e0 := hc rfl
        have e0' := hc' rfl
        rw [show (1 : Nat) - 1 = 0 by omega, e0, e0']
        exact hother 623 (by omega) (by omega) (by omega)
      · exact hother (i - 1) (by omega) (by omega) (by omega)
    have hcur : l[i] = l'[i] := by
      rw [← hv, ← hv', hprev] at hvv
      have h3 := (BitVec.sub_left_inj _).1 hvv
      exact (BitVec.xor_left_inj _).1 h3
    refine ⟨hl, hl', fun j hj hj' => ?_⟩
    by_cases hne : j = i
    · subst hne
      rw [List.getElem?_eq_getElem (by omega : j < l.length), List.getElem?_eq_getElem (by omega : j < l'.length), hcur]
    · exact hother j hj hj' hne

/-- The words that `init(19650218)` leaves. -/
def base : Nat → W := seedWords 19650218#32

theorem base_starts {old : Mem} (ho : old.length = 624) : ∃ l, init old 19650218#32 = .ok ⟨l, 624⟩ ∧ StartsWith l base := by
  have : SeededFrom 19650218#32 base := ⟨rfl, fun i _ => rfl⟩
  exact init_starts this ho

/-- `initArray` with at most 624 seeds: the two loops. -/
theorem initArray_shape {old : Mem} (ho : old.length = 624) {seeds : List W} (hs : seeds ≠ []) (hn : seeds.length ≤ 624) {s : MT} (h : initArray old seeds = .ok s) :
    ∃ r r2, arrayLoop2 623 r 2 = .ok r2 ∧ s = ⟨r2.set 0 0x80000000#32, 624⟩ ∧ r.length = 624 ∧ r[0]? = some (pass base seeds 623) ∧
      r[1]? = some ((pass base seeds 1 ^^^ scramble (pass base seeds 623)) + addend seeds 623) ∧ ∀ i, 2 ≤ i → i < 624 → r[i]? = some (pass base seeds i) := by
  obtain ⟨l, e, w⟩ := base_starts ho
  obtain ⟨r, e1, hl1, g0, g1, g2⟩ := arrayLoop1_result hs w
  obtain ⟨r2, e2, hl2⟩ := arrayLoop2_ok 623 r 2 hl1 (by omega) (by omega)
  have hk : (if 624 > seeds.length then 624 else seeds.length) = 624 := by split <;> omega
  unfold initArray at h
  rw [e, Res.bind_ok] at h
  dsimp only at h
  rw [hk, e1, Res.bind_ok] at h
  dsimp only at h
  rw [e2, Res.bind_ok, wr_ok (by omega), Res.bind_ok] at h
  exact ⟨r, r2, e2, (Res.ok.inj h).symm, hl1, g0, g1, g2⟩

end Verif.Rng
