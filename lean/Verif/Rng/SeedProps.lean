import Verif.Rng.SeedLemmas
import Verif.Rng.Ctor

/-! # C234: Mersenne Twister: different seeds give different sequences, each purely periodic -/

namespace Verif.Rng

open Spec (MTRecurrence SeededFrom StartsWith Tempered)

theorem draws_words {X : Nat → W} (hX : MTRecurrence X) {s s' : MT} {os : List W} {m : Nat} (h : At X 624 s) (e : draws m s = .ok (s', os)) :
    os = (List.range' 624 m).map (fun i => temper (X i)) := by
  obtain ⟨s1, e1, _⟩ := draws_at hX m 624 s h
  rw [e1] at e
  exact ((Prod.mk.inj (Res.ok.inj e)).2).symm

theorem window_get (X : Nat → W) (m n k : Nat) (hk : k < n) : (((List.range' 624 (m + n)).map fun i => temper (X i)).drop m)[k]? = some (temper (X (624 + m + k))) := by
  rw [List.getElem?_drop, List.getElem?_map, List.getElem?_range' (by omega)]
  simp [Nat.add_assoc]

theorem window_same {X Y : Nat → W} {a b : MT} (hX : MTRecurrence X) (hY : MTRecurrence Y) (ha : At X 624 a) (hb : At Y 624 b) {m : Nat} {sa sb : MT} {os os' : List W}
    (e : draws (m + 624) a = .ok (sa, os)) (e' : draws (m + 624) b = .ok (sb, os')) (h : os.drop m = os'.drop m) : SameWords X Y 0 0 := by
  have hw : ∀ k, k < 624 → X (624 + m + k) = Y (624 + m + k) := by
    intro k hk
    have h1 := window_get X m 624 k hk
    have h2 := window_get Y m 624 k hk
    rw [← draws_words hX ha e] at h1
    rw [← draws_words hY hb e', ← h, h1] at h2
    exact temper_inj (Option.some.inj h2)
  refine same_sub (a := 0) (b := 0) hX hY (624 + m) ?_
  rw [Nat.zero_add]
  refine ⟨?_, fun i hi => ?_⟩
  · have := hw 0 (by omega)
    rw [Nat.add_zero] at this
    rw [this]
  · have := hw (1 + i) (by omega)
    rwa [show 624 + m + (1 + i) = 624 + m + 1 + i by omega] at this

/-- C234: with different seeds, any 624 consecutive results differ from those at the same place of the other sequence. -/
theorem seeds_differ (s t : W) (hne : s ≠ t) (old old' : Mem) (ho : old.length = 624) (ho' : old'.length = 624) (a b : MT) (ha : init old s = .ok a) (hb : init old' t = .ok b)
    (m : Nat) (sa sb : MT) (os os' : List W) (e : draws (m + 624) a = .ok (sa, os)) (e' : draws (m + 624) b = .ok (sb, os')) : os.drop m ≠ os'.drop m := by
  intro h
  obtain ⟨X, hs, hX⟩ := seeded_exists s
  obtain ⟨Y, ht, hY⟩ := seeded_exists t
  obtain ⟨l, el, wl⟩ := init_starts hs ho
  obtain ⟨l', el', wl'⟩ := init_starts ht ho'
  rw [ha] at el
  rw [hb] at el'
  have h1 := Res.ok.inj el
  have h2 := Res.ok.inj el'
  subst h1
  subst h2
  exact hne (seed_inj hs ht (window_same hX hY (at_of_starts wl) (at_of_starts wl') e e' h))

theorem periodic_from {l : List W} (hl : l.length = 624) : ∃ p, 0 < p ∧ ∀ m, ∃ sa os sb, draws (p + m) ⟨l, 624⟩ = .ok (sa, os) ∧ draws m ⟨l, 624⟩ = .ok (sb, os.drop p) := by
  have hX := grow_rec l
  have hat := at_of_starts (grow_starts hl)
  obtain ⟨p, hp, hs⟩ := eventually_same hX
  refine ⟨p, hp, fun m => ?_⟩
  obtain ⟨s1, e1, _⟩ := draws_at hX (p + m) 624 _ hat
  obtain ⟨s2, e2, _⟩ := draws_at hX m 624 _ hat
  refine ⟨s1, _, s2, e1, ?_⟩
  rw [e2]
  congr 2
  apply List.ext_getElem?
  intro k
  by_cases hk : k < m
  · rw [window_get _ p m k hk, List.getElem?_map, List.getElem?_range' hk, Option.map_some, Nat.one_mul]
    have := (same_add hX hX hs (623 + k)).2 0 (by omega)
    rw [show 0 + (623 + k) + 1 + 0 = 624 + k by omega, show p + (623 + k) + 1 + 0 = 624 + p + k by omega] at this
    rw [this]
  · rw [List.getElem?_eq_none (by simp; omega), List.getElem?_eq_none (by simp; omega)]

/-- C234: the results for any seed repeat from the very first one on: there is a period, and no part before it. -/
theorem seed_periodic (seed : W) (old : Mem) (ho : old.length = 624) : ∃ a, init old seed = .ok a ∧
    ∃ p, 0 < p ∧ ∀ m, ∃ sa os sb, draws (p + m) a = .ok (sa, os) ∧ draws m a = .ok (sb, os.drop p) := by
  obtain ⟨l, e, hl, _⟩ := init_any old ho seed
  exact ⟨_, e, periodic_from hl⟩

/-- C234: the same for arrays of seeds. -/
theorem array_periodic (seeds : List W) (hs : seeds ≠ []) (old : Mem) (ho : old.length = 624) : ∃ a, initArray old seeds = .ok a ∧
    ∃ p, 0 < p ∧ ∀ m, ∃ sa os sb, draws (p + m) a = .ok (sa, os) ∧ draws m a = .ok (sb, os.drop p) := by
  obtain ⟨l, e, hl, _⟩ := initArray_any old ho seeds hs
  exact ⟨_, e, periodic_from hl⟩

theorem addend_inj {seeds seeds' : List W} {n : Nat} (h1 : seeds.length = n) (h2 : seeds'.length = n) {j i : Nat} (hij : j % n = i) (hi : i < n) (h : addend seeds j = addend seeds' j) : seeds[i]? = seeds'[i]? := by
  unfold addend at h
  rw [h1, h2, hij] at h
  have := (BitVec.add_left_inj _).1 h
  rw [List.getElem?_eq_getElem (by omega), List.getElem?_eq_getElem (by omega)]
  rw [List.getD_eq_getElem?_getD, List.getD_eq_getElem?_getD, List.getElem?_eq_getElem (by omega), List.getElem?_eq_getElem (by omega)] at this
  exact congrArg some this

/-- C234: two different arrays of the same number of seeds, at most 622, give different sequences. -/
theorem arrays_differ_partial (seeds seeds' : List W) (n : Nat) (hn : 0 < n) (hn' : n ≤ 622) (h1 : seeds.length = n) (h2 : seeds'.length = n) (hne : seeds ≠ seeds')
    (old old' : Mem) (ho : old.length = 624) (ho' : old'.length = 624) (a b : MT) (ha : initArray old seeds = .ok a) (hb : initArray old' seeds' = .ok b)
    (m : Nat) (sa sb : MT) (os os' : List W) (e : draws (m + 624) a = .ok (sa, os)) (e' : draws (m + 624) b = .ok (sb, os')) : os.drop m ≠ os'.drop m := by
  intro h
  have hs : seeds ≠ [] := by rintro rfl; simp at h1; omega
  have hs' : seeds' ≠ [] := by rintro rfl; simp at h2; omega
  obtain ⟨r, r2, e2, rfl, hl, g0, g1, g2⟩ := initArray_shape ho hs (by omega) ha
  obtain ⟨q, q2, f2, rfl, kl, k0, k1, k2⟩ := initArray_shape ho' hs' (by omega) hb
  have hl2 : r2.length = 624 := by
    obtain ⟨x, ex, hx⟩ := arrayLoop2_ok 623 r 2 hl (by omega) (by omega)
    rw [e2] at ex
    rw [Res.ok.inj ex]; exact hx
  have kl2 : q2.length = 624 := by
    obtain ⟨x, ex, hx⟩ := arrayLoop2_ok 623 q 2 kl (by omega) (by omega)
    rw [f2] at ex
    rw [Res.ok.inj ex]; exact hx
  have hA : (r2.set 0 0x80000000#32).length = 624 := by simpa using hl2
  have hB : (q2.set 0 0x80000000#32).length = 624 := by simpa using kl2
  have hsame := window_same (grow_rec _) (grow_rec _) (at_of_starts (grow_starts hA)) (at_of_starts (grow_starts hB)) e e' h
  have hag : AgreeFrom1 r2 q2 := by
    refine ⟨hl2, kl2, fun i hi hi' => ?_⟩
    have e1 := (grow_starts hA).2 i hi'
    have e2 := (grow_starts hB).2 i hi'
    rw [List.getElem?_set, if_neg (by omega)] at e1 e2
    rw [e1, e2]
    have := hsame.2 (i - 1) (by omega)
    rw [show 0 + 1 + (i - 1) = i by omega] at this
    rw [this]
  obtain ⟨_, _, hrq⟩ := arrayLoop2_inj 623 r q r2 q2 2 hl kl (by omega) (by omega) (fun h => by omega) (fun h => by omega) e2 f2 hag
  have hP : ∀ i, 2 ≤ i → i < 624 → pass base seeds i = pass base seeds' i := by
    intro i hi hi'
    have := hrq i (by omega) hi'
    rw [g2 i hi hi', k2 i hi hi'] at this
    exact Option.some.inj this
  have hadd : ∀ j, 2 ≤ j → j ≤ 622 → addend seeds j = addend seeds' j := by
    intro j hj hj'
    have := hP (j + 1) (by omega) (by omega)
    rw [pass, pass, hP j hj (by omega)] at this
    exact (BitVec.add_right_inj _).1 this
  have hget : ∀ i, i < n → i ≠ 1 → seeds[i]? = seeds'[i]? := by
    intro i hi hi1
    by_cases h0 : i = 0
    · subst h0
      by_cases hn1 : n = 1
      · exact addend_inj h1 h2 (j := 2) (by rw [hn1]) hi (hadd 2 (by omega) (by omega))
      · exact addend_inj h1 h2 (j := n) (Nat.mod_self n) hi (hadd n (by omega) (by omega))
    · exact addend_inj h1 h2 (j := i) (Nat.mod_eq_of_lt hi) hi (hadd i (by omega) (by omega))
  have hadd0 : addend seeds 0 = addend seeds' 0 := by
    unfold addend
    rw [h1, h2, Nat.zero_mod]
    have := hget 0 hn (by omega)
    rw [List.getD_eq_getElem?_getD, List.getD_eq_getElem?_getD, this]
  have hadd1 : addend seeds 1 = addend seeds' 1 := by
    have hp1 : pass base seeds 1 = pass base seeds' 1 := by rw [pass, pass, hadd0]; rfl
    have h2 : ∀ x : List W, pass base x 2 = (base 2 ^^^ scramble (pass base x 1)) + addend x 1 := fun _ => rfl
    have := hP 2 (by omega) (by omega)
    rw [h2, h2, hp1] at this
    exact (BitVec.add_right_inj _).1 this
  apply hne
  apply List.ext_getElem?
  intro i
  by_cases hi : i < n
  · by_cases hi1 : i = 1
    · subst hi1
      exact addend_inj h1 h2 (j := 1) (Nat.mod_eq_of_lt hi) hi hadd1
    · exact hget i hi hi1
  · rw [List.getElem?_eq_none (by omega), List.getElem?_eq_none (by omega)]

/-! ## What does not hold -/

theorem initArray_eq_of_pass {seeds seeds' : List W} (hs : seeds ≠ []) (hs' : seeds' ≠ []) (hn : seeds.length ≤ 624) (hn' : seeds'.length ≤ 624) (hp : ∀ i, 2 ≤ i → i < 624 → pass base seeds i = pass base seeds' i)
    (h1 : (pass base seeds 1 ^^^ scramble (pass base seeds 623)) + addend seeds 623 = (pass base seeds' 1 ^^^ scramble (pass base seeds 623)) + addend seeds' 623)
    (old : Mem) (ho : old.length = 624) : initArray old seeds = initArray old seeds' := by
  obtain ⟨l, el, _⟩ := initArray_any old ho seeds hs
  obtain ⟨l', el', _⟩ := initArray_any old ho seeds' hs'
  obtain ⟨r, r2, e2, es, hl, g0, g1, g2⟩ := initArray_shape ho hs hn el
  obtain ⟨q, q2, f2, es', kl, k0, k1, k2⟩ := initArray_shape ho hs' hn' el'
  have hrq : r = q := by
    apply List.ext_getElem?
    intro i
    by_cases hi : i < 624
    · by_cases h0 : i = 0
      · subst h0; rw [g0, k0, hp 623 (by omega) (by omega)]
      · by_cases hi1 : i = 1
        · subst hi1; rw [g1, k1, h1, hp 623 (by omega) (by omega)]
        · rw [g2 i (by omega) hi, k2 i (by omega) hi, hp i (by omega) hi]
    · rw [List.getElem?_eq_none (by omega), List.getElem?_eq_none (by omega)]
  subst hrq
  rw [e2] at f2
  rw [el, el', es, es', Res.ok.inj f2]

/-- Arrays of different lengths can give the same sequence: one seed, and two of which the second is smaller by one. -/
theorem arrays_length_false (a : W) (old : Mem) (ho : old.length = 624) : initArray old [a] = initArray old [a, a - 1#32] := by
  have hadd : ∀ j, addend [a] j = addend [a, a - 1#32] j := by
    intro j
    unfold addend
    have h1 : j % [a].length = 0 := Nat.mod_one j
    rw [h1]
    have h2 : j % [a, a - 1#32].length = 0 ∨ j % [a, a - 1#32].length = 1 := by
      have := Nat.mod_lt j (show 0 < 2 by omega)
      show j % 2 = 0 ∨ j % 2 = 1
      omega
    rcases h2 with h2 | h2
    · rw [h2]; rfl
    · rw [h2]
      show a + 0#32 = a - 1#32 + 1#32
      rw [BitVec.sub_add_cancel, BitVec.add_zero]
  have hp : ∀ i, pass base [a] i = pass base [a, a - 1#32] i := by
    intro i
    induction i with
    | zero => rfl
    | succ i ih => rw [pass, pass, ih, hadd i]
  exact initArray_eq_of_pass (by simp) (by simp) (by simp) (by simp) (fun i _ _ => hp i) (by rw [hp 1, hadd 623]) old ho

theorem shift_back (A B s c : W) : A + (B + s - A + c) = B + (s + c) := by
  rw [← BitVec.add_assoc, BitVec.add_comm A, BitVec.sub_add_cancel, BitVec.add_assoc]

/-- Of 624 seeds not all bits matter: for each such array there is another one that gives the same sequence. -/
theorem arrays_full_false (seeds : List W) (hl : seeds.length = 624) : ∃ seeds', seeds'.length = 624 ∧ seeds' ≠ seeds ∧ ∀ old : Mem, old.length = 624 → initArray old seeds' = initArray old seeds := by
  have hs : seeds ≠ [] := by rintro rfl; simp at hl
  let x0 := seeds.getD 0 0 + 1#32
  let p1 := pass base seeds 1 + 1#32
  let x1 := (base 2 ^^^ scramble (pass base seeds 1)) + seeds.getD 1 0 - (base 2 ^^^ scramble p1)
  let x623 := (pass base seeds 1 ^^^ scramble (pass base seeds 623)) + seeds.getD 623 0 - (p1 ^^^ scramble (pass base seeds 623))
  let seeds' := ((seeds.set 0 x0).set 1 x1).set 623 x623
  have hl' : seeds'.length = 624 := by simp [seeds', hl]
  have hs' : seeds' ≠ [] := by intro h; rw [h] at hl'; simp at hl'
  have hadd : ∀ j, j < 624 → addend seeds' j = seeds'.getD j 0 + BitVec.ofNat 32 j ∧ addend seeds j = seeds.getD j 0 + BitVec.ofNat 32 j := by
    intro j hj
    unfold addend
    rw [hl, hl', Nat.mod_eq_of_lt hj]
    exact ⟨rfl, rfl⟩
  have gd : ∀ (l : List W) (i : Nat) (x : W), l[i]? = some x → l.getD i 0 = x := by
    intro l i x h
    rw [List.getD_eq_getElem?_getD, h]; rfl
  have g0 : seeds'.getD 0 0 = x0 := gd _ _ _ (by
    show (((seeds.set 0 x0).set 1 x1).set 623 x623)[0]? = some x0
    rw [List.getElem?_set, if_neg (by omega), List.getElem?_set, if_neg (by omega), List.getElem?_set, if_pos rfl, if_pos (by omega)])
  have g1 : seeds'.getD 1 0 = x1 := gd _ _ _ (by
    show (((seeds.set 0 x0).set 1 x1).set 623 x623)[1]? = some x1
    rw [List.getElem?_set, if_neg (by omega), List.getElem?_set, if_pos rfl, if_pos (by simp; omega)])
  have g623 : seeds'.getD 623 0 = x623 := gd _ _ _ (by
    show (((seeds.set 0 x0).set 1 x1).set 623 x623)[623]? = some x623
    rw [List.getElem?_set, if_pos rfl, if_pos (by simp; omega)])
  have gi : ∀ j, 2 ≤ j → j < 623 → seeds'.getD j 0 = seeds.getD j 0 := by
    intro j h1 h2
    rw [List.getD_eq_getElem?_getD, List.getD_eq_getElem?_getD]
    congr 1
    show (((seeds.set 0 x0).set 1 x1).set 623 x623)[j]? = seeds[j]?
    rw [List.getElem?_set, if_neg (by omega), List.getElem?_set, if_neg (by omega), List.getElem?_set, if_neg (by omega)]
  have hp1 : pass base seeds' 1 = p1 := by
    show (base 1 ^^^ scramble (base 0)) + addend seeds' 0 = (base 1 ^^^ scramble (base 0)) + addend seeds 0 + 1#32
    rw [(hadd 0 (by omega)).1, (hadd 0 (by omega)).2, g0]
    show _ + (seeds.getD 0 0 + 1#32 + 0#32) = _ + (seeds.getD 0 0 + 0#32) + 1#32
    rw [BitVec.add_zero, BitVec.add_zero, BitVec.add_assoc]
  have hp2 : pass base seeds' 2 = pass base seeds 2 := by
    show (base 2 ^^^ scramble (pass base seeds' 1)) + addend seeds' 1 = (base 2 ^^^ scramble (pass base seeds 1)) + addend seeds 1
    rw [hp1, (hadd 1 (by omega)).1, (hadd 1 (by omega)).2, g1]
    exact shift_back _ _ _ _
  have hp : ∀ i, 2 ≤ i → i < 624 → pass base seeds' i = pass base seeds i := by
    intro i
    induction i with
    | zero => intro h; omega
    | succ i ih =>
      intro h1 h2
      by_cases hi : i = 1
      · subst hi; exact hp2
      · rw [pass, pass, ih (by omega) (by omega), (hadd i (by omega)).1, (hadd i (by omega)).2, gi i (by omega) (by omega)]
  refine ⟨seeds', hl', ?_, fun old ho => initArray_eq_of_pass hs' hs (by omega) (by omega) hp ?_ old ho⟩
  · intro h
    have : seeds'.getD 0 0 = seeds.getD 0 0 := by rw [h]
    rw [g0] at this
    have h3 : seeds.getD 0 0 + 1#32 = seeds.getD 0 0 + 0#32 := by rw [BitVec.add_zero]; exact this
    have := (BitVec.add_right_inj _).1 h3
    exact absurd this (by decide)
  · rw [hp1, hp 623 (by omega) (by omega), (hadd 623 (by omega)).1, (hadd 623 (by omega)).2, g623]
    exact shift_back _ _ _ _

/-- C234: a seed that is not 0 is used as it is, so the sequence depends on it alone. -/
theorem ctor_seeded (p p' : Proc) (seed : W) (h : seed ≠ 0) (old old' : Mem) (ho : old.length = 624) (ho' : old'.length = 624) : ctor p old seed = ctor p' old' seed := by
  obtain ⟨l, e, _, hu⟩ := init_any old ho seed
  unfold ctor ctorSeed
  rw [if_neg h, if_neg h, e, hu old' ho']

theorem xor4 (a b c d u v : W) : a ^^^ c ^^^ d ^^^ u = b ^^^ c ^^^ d ^^^ v ↔ a ^^^ b = u ^^^ v := by
  constructor
  · intro h
    apply BitVec.eq_of_getLsbD_eq
    intro i _
    have := congrArg (fun x => x.getLsbD i) h
    simp only [BitVec.getLsbD_xor] at this ⊢
    revert this
    cases a.getLsbD i <;> cases b.getLsbD i <;> cases c.getLsbD i <;> cases d.getLsbD i <;> cases u.getLsbD i <;> cases v.getLsbD i <;> decide
  · intro h
    apply BitVec.eq_of_getLsbD_eq
    intro i _
    have := congrArg (fun x => x.getLsbD i) h
    simp only [BitVec.getLsbD_xor] at this ⊢
    revert this
    cases a.getLsbD i <;> cases b.getLsbD i <;> cases c.getLsbD i <;> cases d.getLsbD i <;> cases u.getLsbD i <;> cases v.getLsbD i <;> decide

/-- C234: two processes of the same parent that are seeded in the same second with seed 0 get the same sequence exactly if their numbers differ just as the microseconds do, times 1024. -/
theorem ctor_zero_partial (p p' : Proc) (h : p.ppid = p'.ppid) (hs : p.sec = p'.sec) :
    ctorSeed p 0 = ctorSeed p' 0 ↔ BitVec.ofNat 32 p.pid ^^^ BitVec.ofNat 32 p'.pid = BitVec.ofNat 32 (p.usec * 1024) ^^^ BitVec.ofNat 32 (p'.usec * 1024) := by
  unfold ctorSeed
  rw [if_pos rfl, if_pos rfl, h, hs]
  exact xor4 _ _ _ _ _ _

/-- With seed 0, two processes can get the same sequence although they have different numbers and start at different times. -/
theorem ctor_zero_false : ctorSeed ⟨1024, 1, 1000000000, 500000⟩ 0 = ctorSeed ⟨2048, 1, 1000000000, 500003⟩ 0 := by decide

/-! ## The hypotheses can be met -/

example : ∃ a b, init (List.replicate 624 0) 1#32 = .ok a ∧ init (List.replicate 624 0) 2#32 = .ok b := by
  obtain ⟨l, e, _⟩ := init_any (List.replicate 624 0) List.length_replicate 1#32
  obtain ⟨l', e', _⟩ := init_any (List.replicate 624 0) List.length_replicate 2#32
  exact ⟨_, _, e, e'⟩

example (old : Mem) (ho : old.length = 624) : ∃ a b, initArray old [1#32, 2#32] = .ok a ∧ initArray old [1#32, 3#32] = .ok b := by
  obtain ⟨l, e, _⟩ := initArray_any old ho [1#32, 2#32] (by simp)
  obtain ⟨l', e', _⟩ := initArray_any old ho [1#32, 3#32] (by simp)
  exact ⟨_, _, e, e'⟩

example : (⟨1024, 1, 1000000000, 500000⟩ : Proc).ppid = (⟨2048, 1, 1000000000, 500001⟩ : Proc).ppid := rfl

end Verif.Rng
