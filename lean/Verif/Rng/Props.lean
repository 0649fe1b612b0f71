import Verif.Rng.Bits
import Verif.Rng.Shuffle
import Verif.Rng.TemplLemmas
import Verif.Rng.MarsLemmas

/-!
# Properties of the random number generators (C44-C48, C71-C75)
-/

namespace Verif.Rng

open Spec (MTRecurrence SeededFrom StartsWith Tempered Choices Exactly XorShift128 CMWC)

/-- A 624-word array of anything. -/
def junk : Mem := List.replicate 624 0

theorem junk_length : junk.length = 624 := List.length_replicate

/-! ## C44 -/

/-- C44: after `init(seed)` the `m` first results are the tempered words 624, 625, ... of the one sequence that starts
with the seed's 624 words and follows the MT19937 recurrence. -/
theorem mt_follows_recurrence (seed : W) (old : Mem) (ho : old.length = 624) :
    ∃ X : Nat → W, SeededFrom seed X ∧ MTRecurrence X ∧
      (∀ Y : Nat → W, SeededFrom seed Y → MTRecurrence Y → ∀ n, Y n = X n) ∧
      ∃ s, init old seed = .ok s ∧ ∀ m, ∃ s' os, draws m s = .ok (s', os) ∧ os.length = m ∧
        ∀ (k : Nat) (z : W), os[k]? = some z → Tempered (X (624 + k)) z := by
  obtain ⟨X, hs, hr⟩ := seeded_exists seed
  refine ⟨X, hs, hr, ?_, ?_⟩
  · intro Y hs' hr'
    apply rec_unique hr' hr
    intro i hi
    induction i with
    | zero => rw [hs.1, hs'.1]
    | succ i ih => rw [hs.2 i (by omega), hs'.2 i (by omega), ih (by omega)]
  · obtain ⟨l, e, w⟩ := init_starts hs ho
    refine ⟨_, e, fun m => ?_⟩
    obtain ⟨s', e', _⟩ := draws_at hr m 624 _ (at_of_starts w)
    refine ⟨s', _, e', by rw [List.length_map, List.length_range'], ?_⟩
    intro k z hz
    rw [List.getElem?_map] at hz
    cases h : (List.range' 624 m)[k]? with
    | none => rw [h] at hz; simp at hz
    | some i =>
      rw [h] at hz
      have hi : i = 624 + k := by
        obtain ⟨hlt, he⟩ := List.getElem?_eq_some_iff.1 h
        rw [List.getElem_range'] at he
        omega
      subst hi
      simp only [Option.map_some, Option.some.injEq] at hz
      rw [← hz]
      exact temper_tempered _

/-- C44: the same from any array of 624 words (the state `initArray` leaves): the results go on for ever as the
tempered sequence grown from those words. -/
theorem mt_follows_recurrence_from_array (l : List W) (hl : l.length = 624) :
    ∃ X : Nat → W, StartsWith l X ∧ MTRecurrence X ∧
      ∀ m, ∃ s' os, draws m ⟨l, 624⟩ = .ok (s', os) ∧ os.length = m ∧
        ∀ (k : Nat) (z : W), os[k]? = some z → Tempered (X (624 + k)) z := by
  refine ⟨grow l, grow_starts hl, grow_rec l, fun m => ?_⟩
  obtain ⟨s', e', _⟩ := draws_at (grow_rec l) m 624 _ (at_of_starts (grow_starts hl))
  refine ⟨s', _, e', by rw [List.length_map, List.length_range'], ?_⟩
  intro k z hz
  rw [List.getElem?_map] at hz
  cases h : (List.range' 624 m)[k]? with
  | none => rw [h] at hz; simp at hz
  | some i =>
    rw [h] at hz
    have hi : i = 624 + k := by
      obtain ⟨hlt, he⟩ := List.getElem?_eq_some_iff.1 h
      rw [List.getElem_range'] at he
      omega
    subst hi
    simp only [Option.map_some, Option.some.injEq] at hz
    rw [← hz]
    exact temper_tempered _

theorem seeded_words {seed : W} {X : Nat → W} (h : SeededFrom seed X) : ∀ i, i < 624 → X i = seedWords seed i := by
  intro i hi
  induction i with
  | zero => exact h.1
  | succ i ih => rw [h.2 i (by omega), ih (by omega)]; rfl

/-- Seed 5489: the published first two outputs. -/
theorem seed_5489 (l : List W) (e : init junk 5489#32 = .ok ⟨l, 624⟩) :
    ∃ s, draws 2 ⟨l, 624⟩ = .ok (s, [3499211612#32, 581869302#32]) := by
  obtain ⟨X, hs, hr⟩ := seeded_exists 5489#32
  obtain ⟨l', e', w⟩ := init_starts hs junk_length
  rw [e] at e'
  cases e'
  obtain ⟨s, ed, _⟩ := draws_at hr 2 624 _ (at_of_starts w)
  refine ⟨s, ?_⟩
  rw [ed]
  have hw := seeded_words hs
  have e0 := rec_eq hr 0
  have e1 := rec_eq hr 1
  rw [hw 0 (by omega), hw (0 + 1) (by omega), hw (0 + 397) (by omega)] at e0
  rw [hw 1 (by omega), hw (1 + 1) (by omega), hw (1 + 397) (by omega)] at e1
  have v1 : seedWords 5489#32 1 = 1301868182#32 := by decide +kernel
  have v2 : seedWords 5489#32 (1 + 1) = 2938499221#32 := by decide +kernel
  have v3 : seedWords 5489#32 (0 + 397) = 3183906156#32 := by decide +kernel
  have v4 : seedWords 5489#32 (1 + 397) = 1728556020#32 := by decide +kernel
  rw [show seedWords 5489#32 0 = 5489#32 from rfl, show seedWords 5489#32 (0 + 1) = 1301868182#32 from v1, v3,
    show (0 + 624 = 624) from rfl] at e0
  rw [v1, v2, v4] at e1
  have f0 : X 624 = 2601187879#32 := e0.trans (by decide)
  have f1 : X 625 = 3919438689#32 := e1.trans (by decide)
  rw [show List.range' 624 2 = [624, 625] from rfl, List.map_cons, List.map_cons, List.map_nil, f0, f1]
  rfl

example : ∃ s s' : MT, init junk 5489#32 = .ok s ∧ draws 2 s = .ok (s', [3499211612#32, 581869302#32]) := by
  obtain ⟨l, e, _⟩ := init_any junk junk_length 5489#32
  obtain ⟨s, h⟩ := seed_5489 l e
  exact ⟨_, s, e, h⟩

/-! ## C71: the state never dies -/

/-- C71: whatever the seed, among any 624 consecutive results there is one that is not zero. -/
theorem mt_never_all_zero (seed : W) (old : Mem) (ho : old.length = 624) {s : MT} (hi : init old seed = .ok s)
    (n : Nat) {s' : MT} {os : List W} (hd : draws (n + 624) s = .ok (s', os)) :
    ∃ (k : Nat) (z : W), n ≤ k ∧ k < n + 624 ∧ os[k]? = some z ∧ z ≠ 0 := by
  obtain ⟨X, hs, hr⟩ := seeded_exists seed
  obtain ⟨l, e, w⟩ := init_starts hs ho
  rw [e] at hi
  cases hi
  obtain ⟨s2, e2, _⟩ := draws_at hr (n + 624) 624 _ (at_of_starts w)
  rw [e2] at hd
  cases hd
  obtain ⟨i, hi, hne⟩ := never_zero hr (seeded_not_zero hs) (624 + n)
  refine ⟨n + i, _, by omega, by omega, ?_, hne⟩
  rw [List.getElem?_map, List.getElem?_range' (by omega)]
  simp only [Nat.one_mul, Option.map_some, Nat.add_assoc]

/-- C71 for `initArray`: seeding from any non-empty array of seeds succeeds, stays inside the arrays, and the results
never die either. -/
theorem mt_array_never_all_zero (seeds : List W) (hne : seeds ≠ []) (old : Mem) (ho : old.length = 624) :
    ∃ s, initArray old seeds = .ok s ∧ ∀ (n : Nat), ∃ s' os, draws (n + 624) s = .ok (s', os) ∧
      ∃ (k : Nat) (z : W), n ≤ k ∧ k < n + 624 ∧ os[k]? = some z ∧ z ≠ 0 := by
  obtain ⟨l, e, hl, h0, _⟩ := initArray_any old ho seeds hne
  refine ⟨_, e, fun n => ?_⟩
  obtain ⟨s2, e2, _⟩ := draws_at (grow_rec l) (n + 624) 624 _ (at_of_starts (grow_starts hl))
  refine ⟨s2, _, e2, ?_⟩
  have hnz : ¬ Zero (grow l) 0 := by
    intro hz
    have h1 := (grow_starts hl).2 0 (by omega)
    rw [h0] at h1
    have h2 := hz.1
    rw [← Option.some.inj h1] at h2
    exact absurd h2 (by decide)
  obtain ⟨i, hi, hne⟩ := never_zero (grow_rec l) hnz (624 + n)
  refine ⟨n + i, _, by omega, by omega, ?_, hne⟩
  rw [List.getElem?_map, List.getElem?_range' (by omega)]
  simp only [Nat.one_mul, Option.map_some, Nat.add_assoc]

/-- `initArray` of an empty vector reads `seed_array[0]`, which does not exist. -/
theorem initArray_empty (old : Mem) (ho : old.length = 624) : initArray old [] = .ub := by
  obtain ⟨l0, e0, hl0, _⟩ := init_any old ho 19650218#32
  unfold initArray
  rw [e0, Res.bind_ok]
  dsimp only
  have : arrayLoop1 [] 624 l0 1 0 = .ub := by
    unfold arrayLoop1
    rw [rd_ok (List.getElem?_eq_getElem (by omega : 1 < l0.length)), Res.bind_ok,
      rd_ok (List.getElem?_eq_getElem (by omega : 1 - 1 < l0.length)), Res.bind_ok]
    rfl
  rw [if_pos (by simp), this]
  rfl

example : ∃ s, initArray junk [1#32, 2#32] = .ok s := (mt_array_never_all_zero _ (by simp) _ junk_length).imp fun _ h => h.1

/-! ## C45 -/

/-- C45: tempering is a bijection on 32-bit words. -/
theorem temper_bijective (z : W) : ∃ y, Tempered y z ∧ ∀ y', Tempered y' z → y' = y := by
  obtain ⟨y, hy⟩ := temper_surj z
  refine ⟨y, hy ▸ temper_tempered y, ?_⟩
  intro y' h
  exact temper_inj ((tempered_eq h).symm.trans hy.symm)

/-- C45: two generators about to return different words return different results. -/
theorem temper_separates {y y' z : W} (h : Tempered y z) (h' : Tempered y' z) : y = y' :=
  temper_inj ((tempered_eq h).symm.trans (tempered_eq h'))

example : Tempered 1#32 4194449#32 := temper_tempered 1#32

/-! ## C46 -/

/-- C46: any valid choices permute the range. -/
theorem shuffle_permutes {α : Type} (l : List α) (cs : List Nat) (h : Choices l.length cs) :
    ∃ l', shuffle cs l = .ok l' ∧ l'.Perm l := shuffle_perm_aux _ l cs rfl h

/-- C46: every order of distinct elements comes from exactly one choice sequence. -/
theorem shuffle_reaches_each_order_once {α : Type} (l t : List α) (hl : l.Nodup) (ht : t.Perm l) :
    ∃ cs, (Choices l.length cs ∧ shuffle cs l = .ok t) ∧ ∀ cs', Choices l.length cs' ∧ shuffle cs' l = .ok t → cs' = cs :=
  shuffle_unique_aux _ l t rfl hl ht

/-- What the generator can return is a valid choice: `randInt((i-first)+1)` is at most `i-first`. -/
theorem randInt_is_choice {S : Type} (next : S → Res (S × W)) (t t' : Templ S) (i : Nat) (hi : i + 2 ≤ 4294967295)
    (r : W) (h : t.intMax next (BitVec.ofNat 32 (i + 2)) = .ok (t', r)) : r.toNat ≤ i + 1 := by
  unfold Templ.intMax at h
  obtain ⟨⟨t1, x⟩, _, h⟩ := Res.bind_eq_ok.1 h
  dsimp only at h
  have hn : (BitVec.ofNat 32 (i + 2)).toNat = i + 2 := by
    rw [BitVec.toNat_ofNat, Nat.mod_eq_of_lt (by omega)]
  rw [if_neg (by intro h0; rw [h0] at hn; simp at hn)] at h
  simp only [Res.pure_eq, Res.ok.injEq, Prod.mk.injEq] at h
  rw [← h.2, BitVec.toNat_umod, hn]
  have := Nat.mod_lt x.toNat (by omega : 0 < i + 2)
  omega

example : Choices [10, 20, 30].length [1, 0] ∧ shuffle [1, 0] [10, 20, 30] = .ok [30, 20, 10] :=
  ⟨⟨rfl, by intro i c h; match i, h with | 0, h => simp at h; omega | 1, h => simp at h; omega⟩, by decide⟩

/-! ## C47 -/

/-- C47: with `UINT32_MAX` all ones, for every `max` but zero, each value below `max` comes from the same number of
generator outputs, `(2^32-1)/max`; every other result is impossible; and one call accepts more than half of all
outputs' range. -/
theorem randIntUnbiased_uniform (max : W) (hm : max ≠ 0) :
    (∀ r, r < max → Exactly (4294967295 / max.toNat) (fun res => accept 0xFFFFFFFF#32 max res = .ok (some r))) ∧
    (∀ res r, accept 0xFFFFFFFF#32 max res = .ok (some r) → r < max ∧ r = res % max) ∧
    (∀ res, (∃ r, accept 0xFFFFFFFF#32 max res = .ok (some r)) ↔ res.toNat < 4294967295 / max.toNat * max.toNat) ∧
    4294967295 < 2 * (4294967295 / max.toNat * max.toNat) := by
  have hle : max.toNat ≤ (0xFFFFFFFF#32).toNat := by have := max.isLt; simp only [BitVec.reduceToNat]; omega
  have hpos : 0 < max.toNat := by
    apply Nat.pos_of_ne_zero
    intro h
    exact hm (BitVec.eq_of_toNat_eq h)
  have he := accept_eq hm hle
  simp only [BitVec.reduceToNat] at he hle
  refine ⟨fun r hr => accept_count (u := 0xFFFFFFFF#32) hm hle hr, ?_, ?_, ?_⟩
  · intro res r h
    rw [he] at h
    split at h
    · cases h
      exact ⟨BitVec.umod_lt _ (by rw [BitVec.lt_def]; exact hpos), rfl⟩
    · simp at h
  · intro res
    rw [he]
    split
    · rename_i h; simp [h]
    · rename_i h; simp [h]
  · have h1 := Nat.div_add_mod 4294967295 max.toNat
    have h2 := Nat.mod_lt 4294967295 hpos
    have h3 : 1 ≤ 4294967295 / max.toNat := (Nat.le_div_iff_mul_le hpos).2 (by omega)
    have h4 : 1 * max.toNat ≤ 4294967295 / max.toNat * max.toNat := Nat.mul_le_mul_right _ h3
    rw [Nat.mul_comm] at h1
    omega

/-- C47: the loop as a whole, over any generator: a result is below `max`. -/
theorem randIntUnbiased_in_range {S : Type} (next : S → Res (S × W)) (max : W) (hm : max ≠ 0) (fuel : Nat)
    (t t' : Templ S) (r : W) (h : t.intUnbiased next 0xFFFFFFFF#32 max fuel = .ok (t', some r)) : r < max :=
  unbiased_lt next hm (by have := max.isLt; simp only [BitVec.reduceToNat]; omega) fuel t t' r h

example : accept 0xFFFFFFFF#32 10#32 4294967293#32 = .ok none ∧ accept 0xFFFFFFFF#32 10#32 4294967289#32 = .ok (some 9#32) := by
  decide

/-- C72: the header's own fallback for `UINT32_MAX` is `0xFFFFFFF`, one digit short. With it, `randIntUnbiased(2^31)`
accepts two outputs for the result 0 and only one for the result `2^31 - 1`. -/
theorem fallback_limit_is_biased :
    (∃ a b : W, a ≠ b ∧ accept 0xFFFFFFF#32 0x80000000#32 a = .ok (some 0#32) ∧
      accept 0xFFFFFFF#32 0x80000000#32 b = .ok (some 0#32)) ∧
    (∀ a : W, accept 0xFFFFFFF#32 0x80000000#32 a = .ok (some 0x7FFFFFFF#32) → a = 0x7FFFFFFF#32) := by
  refine ⟨⟨0#32, 0x80000000#32, by decide, by decide, by decide⟩, ?_⟩
  intro a h
  unfold accept at h
  rw [if_neg (by decide)] at h
  have e1 : (0xFFFFFFF#32 - 0x80000000#32 > a) ↔ a.toNat < 2415919103 := by
    rw [gt_iff_lt, BitVec.lt_def]; rfl
  have e2 : (0xFFFFFFF#32 / 0x80000000#32 * 0x80000000#32 > a) ↔ a.toNat < 0 := by
    rw [gt_iff_lt, BitVec.lt_def]; rfl
  have key : ∀ h : a % 0x80000000#32 = 0x7FFFFFFF#32, a.toNat < 2415919103 → a = 0x7FFFFFFF#32 := by
    intro h hlt
    have h := congrArg BitVec.toNat h
    rw [BitVec.toNat_umod] at h
    simp only [BitVec.reduceToNat] at h
    apply BitVec.eq_of_toNat_eq
    simp only [BitVec.reduceToNat]
    omega
  by_cases h1 : a.toNat < 2415919103
  · rw [if_pos (e1.2 h1)] at h
    exact key (Option.some.inj (Res.ok.inj h)) h1
  · rw [if_neg (fun hh => h1 (e1.1 hh)), if_neg (fun hh => by have := e2.1 hh; omega)] at h
    simp at h

/-- C72, what holds of the fallback: for `max` up to `0xFFFFFFF` the results are still uniform. -/
theorem fallback_limit_partial (max : W) (hm : max ≠ 0) (hle : max.toNat ≤ 0xFFFFFFF) (r : W) (hr : r < max) :
    Exactly (0xFFFFFFF / max.toNat) (fun res => accept 0xFFFFFFF#32 max res = .ok (some r)) :=
  accept_count (u := 0xFFFFFFF#32) hm hle hr

example : (10#32 : W) ≠ 0 ∧ (10#32 : W).toNat ≤ 0xFFFFFFF ∧ 3#32 < 10#32 := by decide

/-! ## C48 -/

theorem boolFast_fresh {S : Type} (next : S → Res (S × W)) (u : W) (fuel : Nat) (t : Templ S) (hb : t.boolShift = 0)
    {s1 s2 : S} {x y : W} (h1 : next t.inner = .ok (s1, x)) (h2 : next s1 = .ok (s2, y)) :
    Templ.calls next u fuel [.boolFast] t =
      .ok ({ inner := s2, boolShift := 63, boolState := (((x.setWidth 64) <<< 32) ||| y.setWidth 64) >>> 1 },
        [.flag ((((x.setWidth 64) <<< 32) ||| y.setWidth 64).getLsbD 0)]) := by
  have hint : t.int next = .ok ({ t with inner := s1 }, x) := by unfold Templ.int; rw [h1]; rfl
  have hint2 : Templ.int next { t with inner := s1 } = .ok ({ t with inner := s2 }, y) := by
    unfold Templ.int; dsimp only; rw [h2]; rfl
  have hll : t.longLong next = .ok ({ t with inner := s2 }, ((x.setWidth 64) <<< 32) ||| y.setWidth 64) := by
    unfold Templ.longLong
    rw [hint, Res.bind_ok]
    dsimp only
    rw [hint2]; rfl
  have hre : t.refill next = .ok { inner := s2, boolShift := 64, boolState := ((x.setWidth 64) <<< 32) ||| y.setWidth 64 } := by
    unfold Templ.refill
    rw [if_pos hb, hll]; rfl
  unfold Templ.calls Templ.call Templ.boolFast
  dsimp only
  rw [hre]; rfl

theorem boolFast_saved {S : Type} (next : S → Res (S × W)) (u : W) (fuel : Nat) (t : Templ S) (hb : t.boolShift ≠ 0) :
    Templ.calls next u fuel [.boolFast] t =
      .ok ({ t with boolState := t.boolState >>> 1, boolShift := t.boolShift - 1 }, [.flag (t.boolState.getLsbD 0)]) := by
  unfold Templ.calls Templ.call Templ.boolFast Templ.refill
  dsimp only
  rw [if_neg hb]; rfl

/-- C48 is false of `randBoolFast`: two generators seeded alike, one of which has drawn one fast bool before, are given
the same seed again and then disagree on the next fast bool. -/
theorem reseed_not_reproducible :
    ∃ s s' : MT, init junk 5489#32 = .ok s ∧ init s.mt 5489#32 = .ok s' ∧
      ∃ t : Templ MT, (∃ o, Templ.calls randInt 0xFFFFFFFF#32 9 [.boolFast] (Templ.new s) = .ok (t, o)) ∧
        outs (Templ.calls randInt 0xFFFFFFFF#32 9 [.boolFast] ((Templ.new s).init s')) = .ok [.flag false] ∧
        (∃ s'', init t.inner.mt 5489#32 = .ok s'' ∧
          outs (Templ.calls randInt 0xFFFFFFFF#32 9 [.boolFast] (t.init s'')) = .ok [.flag true]) := by
  obtain ⟨l, e, hl, hu⟩ := init_any junk junk_length 5489#32
  obtain ⟨s2, hd⟩ := seed_5489 l e
  unfold draws at hd
  obtain ⟨⟨s1, x1⟩, h1, hd⟩ := Res.bind_eq_ok.1 hd
  dsimp only at hd
  obtain ⟨⟨s3, xs⟩, h2, hd⟩ := Res.bind_eq_ok.1 hd
  unfold draws at h2
  obtain ⟨⟨s4, x2⟩, h2b, h3⟩ := Res.bind_eq_ok.1 h2
  dsimp only at h3
  simp only [draws, Res.bind_ok, Res.pure_eq, Res.ok.injEq, Prod.mk.injEq] at h3 hd
  obtain ⟨rfl, rfl⟩ := h3
  obtain ⟨rfl, hx⟩ := hd
  simp only [List.cons.injEq, and_true] at hx
  obtain ⟨rfl, rfl⟩ := hx
  -- the array stays 624 words long
  have hlen : s4.mt.length = 624 := by
    obtain ⟨X, hs, hX⟩ := seeded_exists 5489#32
    obtain ⟨l', e', w⟩ := init_starts hs junk_length
    rw [e] at e'
    cases e'
    obtain ⟨sa, ea, ha⟩ := randInt_at hX (at_of_starts w)
    rw [ea] at h1
    obtain rfl := (Prod.mk.inj (Res.ok.inj h1)).1
    obtain ⟨sb, eb, hb⟩ := randInt_at hX ha
    rw [eb] at h2b
    obtain rfl := (Prod.mk.inj (Res.ok.inj h2b)).1
    obtain ⟨base, hw, _⟩ := hb
    exact hw.1
  have hb : ∀ t : Templ MT, t.inner = ⟨l, 624⟩ → t.boolShift = 0 →
      Templ.calls randInt 0xFFFFFFFF#32 9 [.boolFast] t =
        .ok ({ inner := s4, boolShift := 63, boolState := 0xd091bb5c22ae9ef6#64 >>> 1 }, [.flag false]) := by
    intro t hi hb
    rw [boolFast_fresh randInt _ _ t hb (by rw [hi]; exact h1) h2b]
    rfl
  refine ⟨⟨l, 624⟩, ⟨l, 624⟩, e, hu l hl, _, ⟨_, hb (Templ.new ⟨l, 624⟩) rfl rfl⟩, ?_, ⟨⟨l, 624⟩, hu _ hlen, ?_⟩⟩
  · rw [hb _ rfl rfl]; rfl
  · rw [boolFast_saved randInt _ _ _ (by show (63 : Nat) ≠ 0; omega)]
    show Res.ok [Out.flag ((0xd091bb5c22ae9ef6#64 >>> 1).getLsbD 0)] = _
    rw [show (0xd091bb5c22ae9ef6#64 >>> 1).getLsbD 0 = true by decide +kernel]

/-- C48, what holds: after re-seeding, all results of calls other than `randBoolFast` depend on the seed and those calls
only — for any generator, whatever was called before (`t1`, `t2` are the objects after two histories). -/
theorem reseed_reproducible_partial {S : Type} (next : S → Res (S × W)) (u : W) (fuel : Nat) (t1 t2 : Templ S) (s : S)
    (cs : List Call) (hc : ∀ c ∈ cs, c ≠ .boolFast) :
    outs (Templ.calls next u fuel cs (t1.init s)) = outs (Templ.calls next u fuel cs (t2.init s)) :=
  outs_eq (R := Keep _ _) (calls_keep next u fuel cs _ _ (keep_refl rfl) hc)

/-- C48, also: if no bits were left over from `randBoolFast` in either object, all calls are reproducible. -/
theorem reseed_reproducible_when_drained_partial {S : Type} (next : S → Res (S × W)) (u : W) (fuel : Nat) (t1 t2 : Templ S)
    (s : S) (cs : List Call) (h1 : t1.boolShift = 0) (h2 : t2.boolShift = 0) :
    outs (Templ.calls next u fuel cs (t1.init s)) = outs (Templ.calls next u fuel cs (t2.init s)) :=
  outs_eq (R := Same) (calls_same next u fuel cs _ _ ⟨rfl, Or.inl ⟨h1, h2⟩⟩)

/-- C48: seeding a Mersenne Twister leaves nothing of the state before, by seed or by seed array. -/
theorem mt_seed_forgets (old old' : Mem) (h : old.length = 624) (h' : old'.length = 624) :
    (∀ seed, init old seed = init old' seed) ∧ (∀ seeds, seeds ≠ [] → initArray old seeds = initArray old' seeds) := by
  refine ⟨fun seed => ?_, fun seeds hs => ?_⟩
  · obtain ⟨l, e, _, hu⟩ := init_any old h seed
    rw [e, hu old' h']
  · obtain ⟨l, e, _, _, hu⟩ := initArray_any old h seeds hs
    rw [e, hu old' h']

example : ∀ c ∈ [Call.int, .pair, .intMax 7#32], c ≠ .boolFast := by decide
example : (Templ.new (⟨junk, 624⟩ : MT)).boolShift = 0 := rfl

/-! ## C73: MicroRandInner -/

/-- C73 is false: `x=y; y=z; x=w;` is not the shift of xorshift128 (`z=w` was meant), and already for seed 1 the results
are not an xorshift128 sequence. -/
theorem micro_not_xorshift128 : ¬ XorShift128 (Micro.init 1#32).out := by
  intro h
  obtain ⟨t, rfl, h⟩ := h 0
  revert h
  decide +kernel

/-- C73, what the code does: each result is made from the two before it, so there are 64 bits of state, not 128, and `y`
and `z` never matter. -/
theorem micro_two_term_partial (s : Micro) :
    (∀ n, ∃ t : W, t = s.out n ^^^ (s.out n <<< 15) ∧
      s.out (n + 2) = (t ^^^ (t >>> 4)) ^^^ (s.out (n + 1) ^^^ (s.out (n + 1) >>> 21))) ∧
    (∀ s' : Micro, s.x = s'.x → s.w = s'.w → s.out = s'.out) := by
  refine ⟨fun n => ⟨_, rfl, ?_⟩, ?_⟩
  · rw [← micro_two s n, ← micro_two s (n + 1), ← micro_x s (n + 1)]
    rfl
  · intro s' hx hw
    funext n
    have := micro_xw hx hw n
    show (_ ^^^ _) = (_ ^^^ _)
    rw [this.1, this.2]

example : (⟨1, 2, 3, 4⟩ : Micro).out = (⟨1, 7, 9, 4⟩ : Micro).out := (micro_two_term_partial _).2 _ rfl rfl

/-! ## C74: the multiply-with-carry generators -/

/-- C74 is false in a corner: `A * X + C` a positive multiple of `2^32 - 1`. From `X = 2^32 - 1`, `C = 0` the documented
step gives word `2^32 - 2` and carry `A`; the code gives `2^32 - 1` and `A - 1`. -/
theorem mars_not_documented_step :
    ∃ s s' : Mars, ∃ o : W, s.x.length = 8 ∧ s.c.toNat < 716514398 ∧ Mars.next 8 716514398#64 s = .ok (s', o) ∧
      ¬ ∃ X, s.x[(s.i.toNat + 1) % 8]? = some X ∧ CMWC 716514398 X.toNat s.c.toNat o.toNat s'.c.toNat := by
  refine ⟨⟨[0, 0xFFFFFFFF, 0, 0, 0, 0, 0, 0], 0, 0⟩, ⟨[0, 0xFFFFFFFF, 0, 0, 0, 0, 0, 0], 716514397, 1⟩, 0xFFFFFFFF,
    by decide, by decide, by decide, ?_⟩
  rintro ⟨X, hX, h⟩
  have : X = 0xFFFFFFFF := by
    have h' : some (0xFFFFFFFF : W) = some X := hX
    exact (Option.some.inj h').symm
  subst this
  exact absurd h (by unfold CMWC; decide)

/-- C74, what holds: from any array and any carry up to `A`, with any value of the index (it is never initialised), all
calls stay inside the array; the results continue the array (in the order it is visited) as one sequence `Z` with carries
`C`, where each step satisfies `A Z(n) + C(n) = C(n+1) (2^32-1) + Y` with `0 ≤ Y ≤ 2^32-1` and `Z(n+SIZE) = (2^32-2) - Y`;
the carry stays at most `A`; and the step is the documented one exactly when `A Z(n) + C(n)` is not a positive multiple of
`2^32 - 1`. -/
theorem mars_sequence_partial (k : Nat) (hk : k ≤ 32) (A : BitVec 64) (hA : A.toNat ≤ 4294967294) (s : Mars)
    (hl : s.x.length = 2 ^ k) (hc : s.c.toNat ≤ A.toNat) :
    ∃ Z C : Nat → Nat,
      (∀ j, j < 2 ^ k → (s.x[(s.i.toNat + 1 + j) % 2 ^ k]?).map BitVec.toNat = some (Z j)) ∧ C 0 = s.c.toNat ∧
      (∀ m, ∃ s' os, Mars.draws (2 ^ k) A m s = .ok (s', os) ∧
        os.map BitVec.toNat = (List.range' 0 m).map (fun i => Z (i + 2 ^ k)) ∧ s'.c.toNat = C m) ∧
      ∀ n, C n ≤ A.toNat ∧ (∃ Y, Y ≤ 4294967295 ∧ A.toNat * Z n + C n = C (n + 1) * 4294967295 + Y ∧
          Z (n + 2 ^ k) = (8589934590 - Y) % 4294967296) ∧
        (CMWC A.toNat (Z n) (C n) (Z (n + 2 ^ k)) (C (n + 1)) ↔
          ((A.toNat * Z n + C n) % 4294967295 ≠ 0 ∨ A.toNat * Z n + C n = 0)) := by
  have hp := Nat.two_pow_pos k
  have h0 := at_start hl hc
  dsimp only at h0
  generalize hz0 : (fun j => (s.x[(s.i.toNat + 1 + j) % 2 ^ k]?.getD 0).toNat) = z0 at h0
  have hZ : ∀ n, (zc (2 ^ k) A.toNat z0 s.c.toNat (n + 2 ^ k)).1 =
    (marsStep A.toNat (zc (2 ^ k) A.toNat z0 s.c.toNat n).1 (zc (2 ^ k) A.toNat z0 s.c.toNat n).2).1 := zc_word hp
  have hC : ∀ n, (zc (2 ^ k) A.toNat z0 s.c.toNat (n + 1)).2 =
    (marsStep A.toNat (zc (2 ^ k) A.toNat z0 s.c.toNat n).1 (zc (2 ^ k) A.toNat z0 s.c.toNat n).2).2 := zc_carry
  refine ⟨fun n => (zc (2 ^ k) A.toNat z0 s.c.toNat n).1, fun n => (zc (2 ^ k) A.toNat z0 s.c.toNat n).2, ?_, zc_carry0, ?_, ?_⟩
  · intro j hj
    have := h0.2.2.2 j hj
    rwa [Nat.zero_add] at this
  · intro m
    obtain ⟨s', os, e, ho, h1⟩ := mdraws_at hk hA hZ hC m 0 s h0
    rw [Nat.zero_add] at h1
    exact ⟨s', os, e, ho, h1.2.1⟩
  · intro n
    obtain ⟨s', os, e, ho, h1⟩ := mdraws_at hk hA hZ hC n 0 s h0
    rw [Nat.zero_add] at h1
    have hCn := h1.2.2.1
    have hXn : (zc (2 ^ k) A.toNat z0 s.c.toNat n).1 ≤ 4294967295 := by
      have := h1.2.2.2 0 hp
      cases hx : s'.x[(s'.i.toNat + 1 + 0) % 2 ^ k]? with
      | none => rw [hx] at this; simp at this
      | some x =>
        rw [hx] at this
        simp only [Option.map_some, Option.some.injEq, Nat.add_zero] at this
        rw [← this]
        have := x.isLt
        omega
    dsimp only at hCn ⊢
    rw [hZ n, hC n]
    obtain ⟨Y, a, b, c, _, _⟩ := marsStep_facts hA hXn hCn
    exact ⟨hCn, ⟨Y, a, b, c⟩, marsStep_cmwc hA hXn hCn⟩

/-- The sizes and multipliers used meet the hypotheses. -/
example : (4096 = 2 ^ 12 ∧ (18782#64).toNat ≤ 4294967294) ∧ (8 = 2 ^ 3 ∧ (716514398#64).toNat ≤ 4294967294) ∧
    (64 = 2 ^ 6 ∧ (647535442#64).toNat ≤ 4294967294) := by decide

/-- C74: seeding leaves a full array and a carry below `A`, for the multipliers used. -/
theorem mars_init_partial (k : Nat) (A : BitVec 64) (hA0 : (A.setWidth 32 : W) ≠ 0) (hA : A.toNat ≤ 4294967294)
    (fuel : Nat) (old seed : W) (s : Mars) (h : Mars.init (2 ^ k) A 0xFFFFFFFF#32 fuel old seed = .ok (some s)) :
    s.x.length = 2 ^ k ∧ s.c.toNat < A.toNat ∧ s.i = old := by
  unfold Mars.init at h
  obtain ⟨l, r, e, hl⟩ := fill_facts (2 ^ k) [] (Templ.new (Micro.init seed))
  rw [e, Res.bind_ok] at h
  dsimp only at h
  obtain ⟨⟨r', c⟩, e', h⟩ := Res.bind_eq_ok.1 h
  cases c with
  | none => simp at h
  | some c =>
    have hlt := randIntUnbiased_in_range _ _ hA0 _ _ _ _ e'
    simp only [Option.map_some, Res.pure_eq, Res.ok.injEq, Option.some.injEq] at h
    subst h
    refine ⟨by simpa using hl, ?_, rfl⟩
    rw [BitVec.lt_def, BitVec.toNat_setWidth] at hlt
    have : A.toNat % 2 ^ 32 ≤ A.toNat := Nat.mod_le _ _
    show c.toNat < A.toNat
    omega

/-! ## C75: seeding a Marsaglia generator -/

/-- C75 is false: `init` does not set the index, so the same seed gives different results depending on where the index
was (after construction it is not initialised at all). -/
theorem mars_reseed_not_reproducible :
    ∃ s s' : Mars, Mars.init 8 716514398#64 0xFFFFFFFF#32 9 0#32 1#32 = .ok (some s) ∧
      Mars.init 8 716514398#64 0xFFFFFFFF#32 9 1#32 1#32 = .ok (some s') ∧
      ∃ a b, Mars.draws 8 716514398#64 1 s = .ok a ∧ Mars.draws 8 716514398#64 1 s' = .ok b ∧ a.2 ≠ b.2 := by
  have h : ∀ old : W, old = 0#32 ∨ old = 1#32 → ∃ s, Mars.init 8 716514398#64 0xFFFFFFFF#32 9 old 1#32 = .ok (some s) := by
    rintro old (rfl | rfl)
    · exact (match h : Mars.init 8 716514398#64 0xFFFFFFFF#32 9 0#32 1#32 with
        | .ok (some s) => ⟨s, rfl⟩
        | .ok none => absurd h (by decide +kernel)
        | .abort => absurd h (by decide +kernel)
        | .ub => absurd h (by decide +kernel))
    · exact (match h : Mars.init 8 716514398#64 0xFFFFFFFF#32 9 1#32 1#32 with
        | .ok (some s) => ⟨s, rfl⟩
        | .ok none => absurd h (by decide +kernel)
        | .abort => absurd h (by decide +kernel)
        | .ub => absurd h (by decide +kernel))
  obtain ⟨s, hs⟩ := h 0#32 (Or.inl rfl)
  obtain ⟨s', hs'⟩ := h 1#32 (Or.inr rfl)
  have hne : (Mars.init 8 716514398#64 0xFFFFFFFF#32 9 0#32 1#32 >>= fun s =>
      Mars.init 8 716514398#64 0xFFFFFFFF#32 9 1#32 1#32 >>= fun s' =>
      match s, s' with
      | some s, some s' =>
        match Mars.draws 8 716514398#64 1 s, Mars.draws 8 716514398#64 1 s' with
        | .ok a, .ok b => .ok (decide (a.2 ≠ b.2))
        | _, _ => .ub
      | _, _ => .ub) = .ok true := by decide +kernel
  rw [hs, hs', Res.bind_ok, Res.bind_ok] at hne
  dsimp only at hne
  refine ⟨s, s', hs, hs', ?_⟩
  revert hne
  cases Mars.draws 8 716514398#64 1 s with
  | ok a =>
    cases Mars.draws 8 716514398#64 1 s' with
    | ok b =>
      intro h
      exact ⟨a, b, rfl, rfl, of_decide_eq_true (Res.ok.inj h)⟩
    | abort => intro h; exact absurd h (by simp)
    | ub => intro h; exact absurd h (by simp)
  | abort => intro h; exact absurd h (by simp)
  | ub => intro h; exact absurd h (by simp)

/-- C75, what holds: the index is the only thing carried over; from the same index the same seed gives the same state. -/
theorem mars_reseed_partial (size : Nat) (A : BitVec 64) (u : W) (fuel : Nat) (old old' seed : W) (s s' : Mars)
    (h : Mars.init size A u fuel old seed = .ok (some s)) (h' : Mars.init size A u fuel old' seed = .ok (some s')) :
    s.x = s'.x ∧ s.c = s'.c ∧ s.i = old ∧ s'.i = old' := by
  unfold Mars.init at h h'
  obtain ⟨⟨l, r⟩, e, h⟩ := Res.bind_eq_ok.1 h
  rw [e, Res.bind_ok] at h'
  dsimp only at h h'
  obtain ⟨⟨r1, c⟩, e1, h⟩ := Res.bind_eq_ok.1 h
  rw [e1, Res.bind_ok] at h'
  cases c with
  | none => simp at h
  | some c =>
    simp only [Option.map_some, Res.pure_eq, Res.ok.injEq, Option.some.injEq] at h h'
    subst h; subst h'
    exact ⟨rfl, rfl, rfl, rfl⟩

end Verif.Rng
