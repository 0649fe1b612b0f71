import Verif.Hash.Multi
import Verif.Hash.RotLemmas

/-! # Properties of the hash containers (C01 - C07, C61)

`Fits c n` (in `Unique.lean`) is the only size assumption: `n` slots fit an `int32_t` index and do
not outgrow the largest prime in the bucket list. With the default target chain length it holds for
`n = 283301878` (`fits_default`). -/

namespace Verif.Hash

/-! ## Concrete instances for the examples -/

/-- Integers hashed to three values, so that chains collide; growth at two entries per bucket. -/
def exMap : MapCfg Nat Nat :=
  { kh := fun k => k % 3, ke := fun a b => a == b, full := fun n m => decide (n ≥ 2 * m), dk := 0, dv := 0 }

theorem exMap_ok : MapOk exMap :=
  { refl := by intro a; simp [exMap]
    symm := by intro a b h; simp [exMap] at h ⊢; exact h.symm
    trans := by intro a b c h1 h2; simp [exMap] at h1 h2 ⊢; exact h1.trans h2
    hash := by intro a b h; simp [exMap] at h ⊢; rw [h]
    full_zero := by intro n; simp [exMap] }

theorem fits_default {α : Type} (hash : α → Nat) (eq : α → α → Bool) (d : α) :
    Fits ⟨hash, eq, fun n m => decide (n ≥ 2 * m), d⟩ 283301878 :=
  ⟨by omega, fun k hk => by simp only [decide_eq_false_iff_not]; omega⟩

theorem exMap_fits : Fits exMap.cfg 283301878 := fits_default _ _ _

/-! ## C01 -/

/-- C01. Every history of a `HashMap`, for every hash function, key equality and growth test, gives
results of the finite map of `MapSpec.lean`: no undefined behaviour, no abort other than those of
the map. -/
theorem hashmap_is_map {K V : Type} (m : MapCfg K V) (ok : MapOk m) (cap : Nat) (hf : Fits m.cfg cap) (ops : List (MOp K V)) :
    MapRun cap m.ke m.dv ⟨[], false⟩ ops (mRun m empty' ops) :=
  map_run ok hf ops empty' ⟨[], false⟩ ((ur_empty m.cfg).mono (Nat.zero_le _))

example : mRun exMap empty' [.set 1 10, .set 4 40, .set 1 11, .lookup 1, .size, .remove 1 true, .exists' 1, .dGet 4] =
    .ok [.unit, .unit, .unit, .opt (some 11), .nat 2, .bool true, .bool false, .val 40] := by decide +kernel

/-- C01, no undefined behaviour: stated without the specification. -/
theorem hashmap_no_ub {K V : Type} (m : MapCfg K V) (ok : MapOk m) (ops : List (MOp K V)) (hf : Fits m.cfg ops.length) :
    mRun m empty' ops ≠ .ub := by
  have key : ∀ (ops : List (MOp K V)) (s : MapSt K V) (r : Res (List (MOut K V))) (cap : Nat),
      s.items.length + ops.length ≤ cap → MapRun cap m.ke m.dv s ops r → r ≠ .ub := by
    intro ops
    induction ops with
    | nil => intro s r cap _ h; rw [show r = .ok [] from h]; simp
    | cons op ops ih =>
      intro s r cap hl h
      simp only [List.length_cons] at hl
      rcases h with h | ⟨_, rfl⟩ | ⟨o, s', r', h1, h2, rfl⟩
      · exfalso
        cases op <;> simp [MapOver] at h <;> omega
      · simp
      · have hg := spec_growth h1
        have := ih s' r' cap (by omega) h2
        cases r' <;> simp_all
  exact key ops ⟨[], false⟩ _ ops.length (by simp) (hashmap_is_map m ok _ hf ops)

/-- C01 in words: after any history, `lookup` of a key gives the value most recently stored under an
equal key and not since removed. -/
theorem hashmap_lookup_last_stored {K V : Type} (m : MapCfg K V) (ok : MapOk m) (ops : List (MOp K V))
    (hf : Fits m.cfg ops.length) (hnp : ∀ op ∈ ops, ¬ IsPrune op) (k : K) (outs : List (MOut K V))
    (hr : mRun m empty' (ops ++ [.lookup k]) = .ok outs) :
    outs.getLast? = some (.opt (lastStored m.ke m.dv k ops.reverse)) := by
  obtain ⟨t', s', o, t'', h1, h2, h3, h4⟩ := map_reach ok hf (.lookup k) ops empty' ⟨[], false⟩ [] outs
    ((ur_empty m.cfg).mono (Nat.zero_le _)) (fun k => rfl) hnp (by simp) hr
  rw [h4]
  simp only [mStep, map_lookup ok h1 k, Res.bind_ok, Res.pure_eq, Res.ok.injEq, Prod.mk.injEq] at h3
  rw [← h3.2, h2 k, List.append_nil]

/-- C01 in words: `size()` is the number of distinct present keys. -/
theorem hashmap_size_distinct {K V : Type} (m : MapCfg K V) (ok : MapOk m) (ops : List (MOp K V))
    (hf : Fits m.cfg ops.length) (hnp : ∀ op ∈ ops, ¬ IsPrune op) (outs : List (MOut K V))
    (hr : mRun m empty' (ops ++ [.size]) = .ok outs) :
    ∃ keys : List K, keys.Pairwise (fun a b => m.ke a b = false) ∧
      (∀ k, (∃ x ∈ keys, m.ke k x = true) ↔ (lastStored m.ke m.dv k ops.reverse).isSome) ∧
      outs.getLast? = some (.nat keys.length) := by
  obtain ⟨t', s', o, t'', h1, h2, h3, h4⟩ := map_reach ok hf .size ops empty' ⟨[], false⟩ [] outs
    ((ur_empty m.cfg).mono (Nat.zero_le _)) (fun k => rfl) hnp (by simp) hr
  refine ⟨s'.items.map (·.1), ?_, ?_, ?_⟩
  · rw [List.pairwise_map]; exact h1.dist
  · intro k
    have h5 := h2 k
    rw [List.append_nil] at h5
    rw [← h5, mget, Option.isSome_map, List.find?_isSome]
    constructor
    · rintro ⟨x, hx, hk⟩
      obtain ⟨p, hp, rfl⟩ := List.mem_map.1 hx
      exact ⟨p, hp, hk⟩
    · rintro ⟨p, hp, hk⟩
      exact ⟨p.1, List.mem_map_of_mem hp, hk⟩
  · rw [h4]
    simp only [mStep, Res.pure_eq, Res.ok.injEq, Prod.mk.injEq] at h3
    rw [← h3.2, ur_size h1, List.length_map]

example : lastStored (fun a b => a == b) 0 1 ([.set 1 10, .set 4 40, .remove 4 true, .set 1 11] : List (MOp Nat Nat)).reverse = some 11 ∧
    lastStored (fun a b => a == b) 0 4 ([.set 1 10, .set 4 40, .remove 4 true, .set 1 11] : List (MOp Nat Nat)).reverse = none ∧
    Fits exMap.cfg 4 ∧
    mRun exMap empty' ([.set 1 10, .set 4 40, .remove 4 true, .set 1 11] ++ [.lookup 1]) =
      .ok [.unit, .unit, .bool true, .unit, .opt (some 11)] := by
  refine ⟨by decide, by decide, ⟨by omega, fun k hk => ?_⟩, by decide +kernel⟩
  exact exMap_fits.2 k (by omega)

/-! ## C02, C04 -/

/-- C02, C04. Every history of a `HashTable` (duplicates allowed) gives results of the multimap of
`TableSpec.lean`: `walk` yields a permutation of the stored entries, `remove` deletes one matching
entry or reports that there is none, and no access leaves the table. -/
theorem hashtable_is_multimap {α : Type} (c : Cfg α) (law : Lawful c) (cap : Nat) (hf : Fits c cap) (ops : List (TOp α)) :
    MultiRun cap c.eq ⟨[], false⟩ ops (tRun c empty' ops) :=
  mr_run law hf ops empty' ⟨[], false⟩ (mr_empty c cap)

example : tRun exMap.cfg empty' [.add (1, 10), .add (1, 11), .add (4, 40), .walk, .remove (1, 0) true, .size, .walk] =
    .ok [.opt (some (1, 10)), .opt (some (1, 11)), .opt (some (4, 40)), .list [(4, 40), (1, 11), (1, 10)], .bool true,
      .nat 2, .list [(4, 40), (1, 10)]] := by decide +kernel

/-- C02, C04, no undefined behaviour: stated without the specification. -/
theorem hashtable_no_ub {α : Type} (c : Cfg α) (law : Lawful c) (ops : List (TOp α)) (hf : Fits c ops.length) :
    tRun c empty' ops ≠ .ub := by
  have key : ∀ (ops : List (TOp α)) (s : MultiSt α) (r : Res (List (TOut α))) (cap : Nat),
      s.items.length + ops.length ≤ cap → MultiRun cap c.eq s ops r → r ≠ .ub := by
    intro ops
    induction ops with
    | nil => intro s r cap _ h; rw [show r = .ok [] from h]; simp
    | cons op ops ih =>
      intro s r cap hl h
      simp only [List.length_cons] at hl
      rcases h with h | ⟨_, rfl⟩ | ⟨o, s', r', h1, h2, rfl⟩
      · exfalso
        cases op <;> simp [MultiOver] at h <;> omega
      · simp
      · have hg : s'.items.length ≤ s.items.length + 1 := multi_growth h1
        have := ih s' r' cap (by omega) h2
        cases r' <;> simp_all
  exact key ops ⟨[], false⟩ _ ops.length (by simp) (hashtable_is_multimap c law _ hf ops)

/-- The state after a history, for properties of single states. -/
def Reaches (c : Cfg α) (t : Table α) : Prop :=
  ∃ (cap : Nat) (ops : List (TOp α)), Fits c cap ∧ ops.length ≤ cap ∧ tState c empty' ops = .ok t

theorem reaches_mr {α : Type} {c : Cfg α} (law : Lawful c) {t : Table α} (h : Reaches c t) : ∃ s n, MR c t s n := by
  obtain ⟨cap, ops, hf, hl, hr⟩ := h
  have key : ∀ (ops : List (TOp α)) (t0 : Table α) (s : MultiSt α), MR c t0 s cap → s.items.length + ops.length ≤ cap →
      tState c t0 ops = .ok t → ∃ s n, MR c t s n := by
    intro ops
    induction ops with
    | nil =>
      intro t0 s h _ hr
      simp only [tState] at hr
      injection hr with hr
      subst hr
      exact ⟨s, cap, h⟩
    | cons op ops ih =>
      intro t0 s h hl hr
      simp only [List.length_cons] at hl
      simp only [tState] at hr
      rw [Res.bind_eq_ok] at hr
      obtain ⟨q, e, hr⟩ := hr
      rcases mr_step law h hf op with h1 | ⟨_, e2⟩ | ⟨t', o, s', e2, h1, h2⟩
      · exfalso
        cases op <;> simp [MultiOver] at h1 <;> omega
      · rw [e2] at e; cases e
      · rw [e2] at e
        injection e with e
        subst e
        have hg : s'.items.length ≤ s.items.length + 1 := multi_growth h1
        exact ih t' s' h2 (by omega) hr
  exact key ops empty' ⟨[], false⟩ (mr_empty c cap) (by simpa using hl) hr

/-- C02. In every reachable state a walk from `begin()` to `end()` terminates without leaving the
table, yields as many entries as `size()` says, and `lookup` of a key finds an entry exactly when the
walk shows one. -/
theorem walk_total {α : Type} (c : Cfg α) (law : Lawful c) (t : Table α) (h : Reaches c t) :
    ∃ l, walk t = .ok l ∧ l.length = size t ∧
      ∀ k, (∃ loc, lookup c t k = .ok (some loc)) ↔ ∃ x ∈ l, c.eq k x = true := by
  obtain ⟨s, n, hm⟩ := reaches_mr law h
  obtain ⟨bs, fl, hi, hp⟩ := hm.repr
  refine ⟨_, walk_ok hi, by rw [size_ok hi, List.length_map], ?_⟩
  intro k
  rcases mr_lookup law hm k with ⟨hno, e⟩ | ⟨x, loc, hx, hk, e, _⟩
  · constructor
    · rintro ⟨loc, h3⟩; rw [e] at h3; cases h3
    · rintro ⟨x, hx, hk⟩
      rw [hno x (hp.mem_iff.2 hx)] at hk; cases hk
  · exact ⟨fun _ => ⟨x, hp.mem_iff.1 hx, hk⟩, fun _ => ⟨loc, e⟩⟩

example : Reaches exMap.cfg (⟨[none, some 1, none, none, none], [⟨(1, 10), none⟩, ⟨(4, 40), some 0⟩], none, 0⟩ : Table (Nat × Nat)) :=
  ⟨283301878, [.add (1, 10), .add (4, 40)], exMap_fits, by simp, by decide +kernel⟩

/-! ## C61: `randomlookup` -/

/-- C61. In every reachable state `randomlookup` returns null exactly when the table is empty and
otherwise a stored entry, for every pair of random numbers; and every stored entry is returned for
some pair. -/
theorem randomlookup_spec {α : Type} (c : Cfg α) (law : Lawful c) (t : Table α) (h : Reaches c t) :
    ∃ l, walk t = .ok l ∧
      (l = [] → ∀ a b, randomlookup t a b = .ok none) ∧
      (l ≠ [] → ∀ a b, ∃ loc, ∃ x ∈ l, randomlookup t a b = .ok (some loc) ∧ deref t loc = .ok x) ∧
      ∀ x ∈ l, ∃ a b loc, randomlookup t a b = .ok (some loc) ∧ deref t loc = .ok x := by
  obtain ⟨s, n, hm⟩ := reaches_mr law h
  obtain ⟨bs, fl, hi, hp⟩ := hm.repr
  refine ⟨_, walk_ok hi, ?_, ?_, ?_⟩
  · intro hl a b
    have hsz := size_ok hi
    rw [List.map_eq_nil_iff] at hl
    rw [hl] at hsz
    simp [randomlookup, hsz]
  · intro hl a b
    obtain ⟨p, hpm, e⟩ := randomlookup_ok hi a b (fun h3 => hl (by rw [h3]; rfl))
    obtain ⟨nx, hg⟩ := hi.get_data hpm
    exact ⟨p.1, p.2, List.mem_map_of_mem hpm, e, by simp [deref, rd_ok hg]⟩
  · intro x hx
    obtain ⟨p, hpm, rfl⟩ := List.mem_map.1 hx
    obtain ⟨a, b, _, _, e⟩ := randomlookup_surj hi hpm
    obtain ⟨nx, hg⟩ := hi.get_data hpm
    exact ⟨a, b, p.1, e, by simp [deref, rd_ok hg]⟩

/-! ## C03 -/

/-- The state of a `HashMap` after a history. -/
def mState (m : MapCfg K V) : Table (K × V) → List (MOp K V) → Res (Table (K × V))
  | t, [] => .ok t
  | t, op :: ops => do
    let r ← mStep m t op
    mState m r.1 ops

/-- C03. In every reachable `HashMap` state the prune loop (remove the current entry when selected and
`partialReset`, step otherwise) ends without leaving the table; what remains are exactly the entries
not selected; every entry is examined, none other is, and a selected entry is examined exactly once
(never again after its removal). -/
theorem prune_exact {K V : Type} (m : MapCfg K V) (ok : MapOk m) (cap : Nat) (hf : Fits m.cfg cap) (ops : List (MOp K V))
    (hl : ops.length ≤ cap) (t : Table (K × V)) (hr : mState m empty' ops = .ok t) (sel : K × V → Bool) :
    ∃ l t' seen l', walk t = .ok l ∧ prune m.cfg sel t = .ok (t', seen) ∧ walk t' = .ok l' ∧
      l'.Perm (l.filter (fun p => !sel p)) ∧ (∀ p, p ∈ seen ↔ p ∈ l) ∧ (seen.filter sel).Perm (l.filter sel) := by
  have key : ∀ (ops : List (MOp K V)) (t0 : Table (K × V)) (s : MapSt K V), MapR m t0 s cap → s.items.length + ops.length ≤ cap →
      mState m t0 ops = .ok t → ∃ s, MapR m t s cap := by
    intro ops
    induction ops with
    | nil =>
      intro t0 s h _ hr
      simp only [mState] at hr
      injection hr with hr
      subst hr
      exact ⟨s, h⟩
    | cons op ops ih =>
      intro t0 s h hl hr
      simp only [List.length_cons] at hl
      simp only [mState] at hr
      rw [Res.bind_eq_ok] at hr
      obtain ⟨q, e, hr⟩ := hr
      rcases map_step ok h hf op with h1 | ⟨_, e2⟩ | ⟨t', o, s', e2, h1, h2⟩
      · exfalso
        cases op <;> simp [MapOver] at h1 <;> omega
      · rw [e2] at e; cases e
      · rw [e2] at e
        injection e with e
        subst e
        have hg := spec_growth h1
        exact ih t' s' h2 (by omega) hr
  obtain ⟨s, h⟩ := key ops empty' ⟨[], false⟩ ((ur_empty m.cfg).mono (Nat.zero_le _)) (by simpa using hl) hr
  obtain ⟨l, e1, p1⟩ := ur_walk h
  obtain ⟨t', seen, e2, h2, h3, h4⟩ := ur_prune ok.lawful h sel
  obtain ⟨l', e3, p3⟩ := ur_walk h2
  exact ⟨l, t', seen, l', e1, e2, e3, p3.trans (p1.filter _).symm, fun p => (h3 p).trans p1.mem_iff.symm,
    h4.trans (p1.filter _).symm⟩

/-- A chain of three entries pruned in the middle and at the front. -/
example : ∃ t, mState exMap empty' [.set 1 10, .set 4 40, .set 7 70, .set 2 20] = .ok t ∧
    walk t = .ok [(7, 70), (4, 40), (1, 10), (2, 20)] ∧
    (prune exMap.cfg (fun p => p.1 == 4 || p.1 == 7) t).map (·.2) = .ok [(7, 70), (4, 40), (1, 10), (2, 20)] :=
  ⟨_, rfl, by decide +kernel, by decide +kernel⟩

/-! ## C05: `addOrReplace` does not replace -/

/-- C05 is false of the code: with an equal-keyed entry present, `addOrReplace` reports `true` but the
table still holds the old value (`HashTable.hpp:123-133` never assigns). -/
theorem addOrReplace_keeps_old :
    tRun exMap.cfg empty' [.add (1, 10), .addOrReplace (1, 11), .lookup (1, 0)] =
      .ok [.opt (some (1, 10)), .repl (1, 10) true, .opt (some (1, 10))] := by decide +kernel

/-- What holds of C05 in every reachable state: the call reports whether an equal-keyed entry was present; when
there was none the new value is stored and found. When there was one, the table is unchanged (missing:
the old value should have been overwritten). -/
theorem addOrReplace_partial {α : Type} (c : Cfg α) (law : Lawful c) (cap : Nat) (hf : Fits c cap) (ops : List (TOp α))
    (hl : ops.length < cap) (t : Table α) (hr : tState c empty' ops = .ok t) (d : α) :
    (∃ loc t' loc', lookup c t d = .ok none ∧ addOrReplace c t d = .ok (t', loc, false) ∧
      lookup c t' d = .ok (some loc') ∧ deref t' loc' = .ok d) ∨
    (∃ loc, lookup c t d = .ok (some loc) ∧ addOrReplace c t d = .ok (t, loc, true)) := by
  have key : ∀ (ops : List (TOp α)) (t0 : Table α) (s : MultiSt α), MR c t0 s cap → s.items.length + ops.length < cap →
      tState c t0 ops = .ok t → ∃ s, MR c t s cap ∧ s.items.length < cap := by
    intro ops
    induction ops with
    | nil =>
      intro t0 s h hl hr
      simp only [tState] at hr
      injection hr with hr
      subst hr
      exact ⟨s, h, by simpa using hl⟩
    | cons op ops ih =>
      intro t0 s h hl hr
      simp only [List.length_cons] at hl
      simp only [tState] at hr
      rw [Res.bind_eq_ok] at hr
      obtain ⟨q, e, hr⟩ := hr
      rcases mr_step law h hf op with h1 | ⟨_, e2⟩ | ⟨t', o, s', e2, h1, h2⟩
      · exfalso
        cases op <;> simp [MultiOver] at h1 <;> omega
      · rw [e2] at e; cases e
      · rw [e2] at e
        injection e with e
        subst e
        have hg : s'.items.length ≤ s.items.length + 1 := multi_growth h1
        exact ih t' s' h2 (by omega) hr
  obtain ⟨s, hm, hlt⟩ := key ops empty' ⟨[], false⟩ (mr_empty c cap) (by simpa using hl) hr
  rcases mr_lookup law hm d with ⟨hno, e⟩ | ⟨x, loc, hx, hk, e, _⟩
  · left
    obtain ⟨t', loc, e1, e2, e3⟩ := mr_add law hm hf hlt d
    rcases mr_lookup law e2 d with ⟨hno', _⟩ | ⟨y, loc', hy, hk, e4, e5⟩
    · have := hno' d (by simp)
      rw [law.refl] at this; cases this
    · have hyd : y = d := by
        rcases List.mem_cons.1 hy with rfl | hy
        · rfl
        · rw [hno y hy] at hk; cases hk
      subst hyd
      exact ⟨loc, t', loc', e, by simp [addOrReplace, e, e1], e4, e5⟩
  · right
    exact ⟨loc, e, by simp [addOrReplace, e]⟩

example : (addOrReplace exMap.cfg empty' (1, 11)).map (·.2) = .ok (0, false) := by decide +kernel

/-! ## C06 -/

/-- C06. Every history of a `HashUnique` gives results of a set. -/
theorem hashunique_is_set {K : Type} (c : Cfg K) (law : Lawful c) (cap : Nat) (hf : Fits c cap) (ops : List (UOp K)) :
    SetRun cap c.eq ⟨[], false⟩ ops (uRun c empty' ops) :=
  set_run law hf ops empty' ⟨[], false⟩ ((ur_empty c).mono (Nat.zero_le _))

/-- C06 in words: `exists(k)` iff `k` was added and not removed since. -/
theorem hashunique_exists_iff {K : Type} (c : Cfg K) (law : Lawful c) (ops : List (UOp K)) (hf : Fits c ops.length) (k : K)
    (outs : List (UOut K)) (hr : uRun c empty' (ops ++ [.exists' k]) = .ok outs) :
    outs.getLast? = some (.bool (addedSince c.eq k ops.reverse)) := by
  obtain ⟨t', s', o, t'', h1, _, h2, h3, h4⟩ := set_reach law hf (.exists' k) ops empty' ⟨[], false⟩ [] outs
    ((ur_empty c).mono (Nat.zero_le _)) (fun k => rfl) (by simp) hr
  rw [h4]
  have h5 := h2 k
  rw [List.append_nil] at h5
  rcases ur_lookup law h1 k with ⟨hno, e⟩ | ⟨x, loc, hx, e, _⟩
  · simp [uStep, uExists, e] at h3
    rw [← h3.2, ← h5, umem_none hno]
  · simp [uStep, uExists, e] at h3
    rw [← h3.2, ← h5, umem_some hx]

/-- C06 in words: `add(k)` returns true exactly when `k` was absent. -/
theorem hashunique_add_iff {K : Type} (c : Cfg K) (law : Lawful c) (ops : List (UOp K)) (hf : Fits c (ops.length + 1)) (k : K)
    (outs : List (UOut K)) (hr : uRun c empty' (ops ++ [.add k]) = .ok outs) :
    outs.getLast? = some (.bool (!addedSince c.eq k ops.reverse)) := by
  obtain ⟨t', s', o, t'', h1, h0, h2, h3, h4⟩ := set_reach law hf (.add k) ops empty' ⟨[], false⟩ [] outs
    ((ur_empty c).mono (Nat.zero_le _)) (fun k => rfl) (by simp) hr
  rw [h4]
  have h5 := h2 k
  rw [List.append_nil] at h5
  simp only [List.length_nil, Nat.zero_add] at h0
  rcases ur_lookup law h1 k with ⟨hno, e⟩ | ⟨x, loc, hx, e, _⟩
  · obtain ⟨t1, loc, e1, _⟩ := ur_add law h1 hf (by omega) k hno
    simp [uStep, uAdd, e, e1] at h3
    rw [← h3.2, ← h5, umem_none hno]; rfl
  · simp [uStep, uAdd, e] at h3
    rw [← h3.2, ← h5, umem_some hx]; rfl

/-- C06 in words: `size()` is the number of distinct keys added and not removed since. -/
theorem hashunique_size {K : Type} (c : Cfg K) (law : Lawful c) (ops : List (UOp K)) (hf : Fits c ops.length)
    (outs : List (UOut K)) (hr : uRun c empty' (ops ++ [.size]) = .ok outs) :
    ∃ keys : List K, keys.Pairwise (fun a b => c.eq a b = false) ∧
      (∀ k, (∃ x ∈ keys, c.eq k x = true) ↔ addedSince c.eq k ops.reverse = true) ∧
      outs.getLast? = some (.nat keys.length) := by
  obtain ⟨t', s', o, t'', h1, _, h2, h3, h4⟩ := set_reach law hf .size ops empty' ⟨[], false⟩ [] outs
    ((ur_empty c).mono (Nat.zero_le _)) (fun k => rfl) (by simp) hr
  refine ⟨s'.keys, h1.dist, ?_, ?_⟩
  · intro k
    have h5 := h2 k
    rw [List.append_nil] at h5
    rw [← h5, umem, List.any_eq_true]
  · rw [h4]
    simp only [uStep, Res.pure_eq, Res.ok.injEq, Prod.mk.injEq] at h3
    rw [← h3.2, ur_size h1]

def exSet : Cfg Nat := { hash := fun k => k % 2, eq := fun a b => a == b, full := fun n m => decide (n ≥ 2 * m), dflt := 0 }

theorem exSet_lawful : Lawful exSet :=
  { refl := by intro a; simp [exSet]
    symm := by intro a b h; simp [exSet] at h ⊢; exact h.symm
    trans := by intro a b c h1 h2; simp [exSet] at h1 h2 ⊢; exact h1.trans h2
    hash := by intro a b h; simp [exSet] at h ⊢; rw [h]
    full_zero := by intro n; simp [exSet] }

example : Fits exSet 283301878 ∧ uRun exSet empty' [.add 1, .add 3, .add 1, .remove 3 true, .exists' 3, .exists' 1, .size] =
    .ok [.bool true, .bool true, .bool false, .unit, .bool false, .bool true, .nat 1] :=
  ⟨fits_default _ _ _, by decide +kernel⟩

/-! ## C07 -/

/-- C07. Every history of a `RotatingHashMap` gives results of the map with ages of `SetSpec.lean`:
using a key makes it recent, a rotation drops what was not used since the previous one. -/
theorem rotating_is_aged_map {K V : Type} (m : MapCfg K V) (ok : MapOk m) (cap : Nat) (hf : Fits m.cfg cap)
    (ops : List (ROp K V)) : RotRun cap m.ke m.dv [] ops (rRun m rNew ops) :=
  rot_run ok hf ops rNew [] (rot_new m cap)

/-- C07 in words: a key found by `lookup`, then not removed or overwritten and with no rotation in
between, is still there with its value after one rotation. -/
theorem accessed_survives_rotate {K V : Type} (m : MapCfg K V) (ok : MapOk m) (before mid : List (ROp K V)) (k : K) (v : V)
    (hf : Fits m.cfg (before.length + (mid.length + 3))) (hmid : ∀ op ∈ mid, Keeps m.ke k op) (outs : List (MOut K V))
    (hr : rRun m rNew (before ++ (.lookup k :: (mid ++ [.rotate, .lookup k]))) = .ok outs)
    (hv : outs[before.length]? = some (.opt (some v))) : outs.getLast? = some (.opt (some v)) := by
  obtain ⟨r1, s1, o1, o2, g1, g2, _, g4, g5, g6⟩ := rot_reach ok hf _ before rNew [] outs (rot_new m _) (by simp) hr
  simp only [List.length_cons, List.length_append, List.length_nil] at g2
  obtain ⟨r2, s2, o, outs2, f1, f2, f3, f4, f5⟩ := rot_one ok hf g1 (by simp only [List.length_append, List.length_cons, List.length_nil]; omega) g4
  have ho : o = .opt (some v) := by
    rw [g5, List.getElem?_append_right (by omega), g6, Nat.sub_self, f5] at hv
    simpa using hv
  have hrec : ∃ e, aget m.ke s2 k = some e ∧ e.age = 0 ∧ e.val = v := by
    obtain ⟨h1, rfl⟩ := f3
    rw [ho] at h1
    injection h1 with h1
    rw [aget_touch ok]
    cases hg : aget m.ke s1 k with
    | none => rw [hg] at h1; cases h1
    | some e =>
      rw [hg] at h1
      simp only [Option.map_some, Option.some.injEq] at h1
      refine ⟨_, rfl, ?_, ?_⟩ <;> dsimp only
      · rw [if_pos (aget_key hg)]; exact refresh_age _ _
      · rw [if_pos (aget_key hg), refresh_val]; exact h1.symm
  simp only [List.length_append, List.length_cons, List.length_nil] at f2
  obtain ⟨r3, s3, o3, o4, e1, e2, e3, e4, e5, e6⟩ := rot_reach ok hf _ mid r2 s2 outs2 f1
    (by simp only [List.length_cons, List.length_nil]; omega) f4
  have hrec3 := keeps_steps ok e3 hmid hrec
  simp only [List.length_cons, List.length_nil] at e2
  obtain ⟨r4, s4, p4, outs4, d1, d2, d3, d4, d5⟩ := rot_one ok hf e1 (by simp only [List.length_cons, List.length_nil]; omega) e4
  obtain ⟨_, rfl⟩ := d3
  obtain ⟨e, he, hev⟩ := aget_rotate k v hrec3
  simp only [List.length_cons, List.length_nil] at d2
  obtain ⟨r5, s5, p5, outs5, c1, c2, c3, c4, c5⟩ := rot_one ok hf d1 (by simp only [List.length_nil]; omega) d4
  obtain ⟨c6, _⟩ := c3
  rw [he] at c6
  simp only [Option.map_some, hev] at c6
  have h6 : outs5 = [] := by simpa [rRun] using c4.symm
  rw [g5, f5, e5, d5, c5, c6, h6]
  exact getLast?_end o1 o3 o p4 _

/-- C07 in words: a key not used between two rotations is gone after the second. -/
theorem unused_gone_after_two_rotates {K V : Type} (m : MapCfg K V) (ok : MapOk m) (before mid : List (ROp K V)) (k : K)
    (hf : Fits m.cfg (before.length + (mid.length + 3))) (hmid : ∀ op ∈ mid, Ignores m.ke k op) (outs : List (MOut K V))
    (hr : rRun m rNew (before ++ (.rotate :: (mid ++ [.rotate, .lookup k]))) = .ok outs) :
    outs.getLast? = some (.opt none) := by
  obtain ⟨r1, s1, o1, o2, g1, g2, _, g4, g5, g6⟩ := rot_reach ok hf _ before rNew [] outs (rot_new m _) (by simp) hr
  simp only [List.length_cons, List.length_append, List.length_nil] at g2
  obtain ⟨r2, s2, o, outs2, f1, f2, f3, f4, f5⟩ := rot_one ok hf g1 (by simp only [List.length_append, List.length_cons, List.length_nil]; omega) g4
  obtain ⟨_, rfl⟩ := f3
  simp only [List.length_append, List.length_cons, List.length_nil] at f2
  obtain ⟨r3, s3, o3, o4, e1, e2, e3, e4, e5, e6⟩ := rot_reach ok hf _ mid r2 _ outs2 f1
    (by simp only [List.length_cons, List.length_nil]; omega) f4
  have hnr := ignores_steps ok e3 hmid (notRecent_rotate k)
  simp only [List.length_cons, List.length_nil] at e2
  obtain ⟨r4, s4, p4, outs4, d1, d2, d3, d4, d5⟩ := rot_one ok hf e1 (by simp only [List.length_cons, List.length_nil]; omega) e4
  obtain ⟨_, rfl⟩ := d3
  simp only [List.length_cons, List.length_nil] at d2
  obtain ⟨r5, s5, p5, outs5, c1, c2, c3, c4, c5⟩ := rot_one ok hf d1 (by simp only [List.length_nil]; omega) d4
  obtain ⟨c6, _⟩ := c3
  rw [notRecent_gone hnr] at c6
  have h6 : outs5 = [] := by simpa [rRun] using c4.symm
  rw [g5, f5, e5, d5, c5, c6, h6]
  exact getLast?_end o1 o3 o p4 _

example : rRun exMap rNew [.set 1 10, .set 4 40, .rotate, .lookup 1, .existsNoPromote 4, .rotate, .lookup 1, .lookup 4, .size] =
    .ok [.unit, .unit, .unit, .opt (some 10), .bool true, .unit, .opt (some 10), .opt none, .nat 1] := by decide +kernel

/-! ## Findings -/

/-- Without the room assumption the add stops the program: a table at the largest bucket count whose
growth test holds and that has no free slot cannot grow (`HashTable.hpp:652-655`). -/
theorem add_aborts_when_primes_run_out {α : Type} (c : Cfg α) (t : Table α) (d : α) (hl : t.entry.length = 141650939)
    (hfree : t.free = none) (hs : t.freeSize = 0) (hfull : c.full t.chains.length 141650939 = true) :
    add c t d = .abort := by
  have hp : primeLoop (fun p => decide (p ≤ 141650939)) primes = .abort := by
    have := primeLoop_abort 141650940 (by omega)
    have hfun : (fun p => decide (p ≤ 141650939)) = (fun p => decide (p < 141650940)) := by
      funext p
      exact decide_eq_decide.2 (by omega)
    rw [hfun]
    exact this
  simp only [add, maybeResize, resize, hfree, hs, hl, hfull, and_self, if_true, decide_true, Res.require_true, Res.bind_ok, hp,
    Res.bind_abort]

example : ∃ (c : Cfg Nat) (t : Table Nat), t.entry.length = 141650939 ∧ t.free = none ∧ t.freeSize = 0 ∧
    c.full t.chains.length 141650939 = true :=
  ⟨⟨id, fun a b => a == b, fun _ _ => true, 0⟩, ⟨List.replicate 141650939 none, [], none, 0⟩, List.length_replicate, rfl, rfl, rfl⟩

/-- `iterator::reset()` leaves the old `chain_loc` in place (`HashTable.hpp:329-332`): after the table
was cleared, a reset iterator does not equal `end()` and dereferencing it aborts. -/
theorem reset_after_clear_is_stale :
    ∃ t : Table (Nat × Nat), tState exMap.cfg empty' [.add (1, 10)] = .ok t ∧
      reset (clear t) (begin' t) ≠ end' (clear t) ∧ itDeref (clear t) (reset (clear t) (begin' t)) = .abort :=
  ⟨_, rfl, by decide +kernel, by decide +kernel⟩

end Verif.Hash
