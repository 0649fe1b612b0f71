import Verif.Hash.Unique
import Verif.Hash.MapSpec

/-! # Simulation of the finite-map specification by `HashMap` -/

namespace Verif.Hash

variable {K V : Type} {m : MapCfg K V} {t : Table (K × V)} {s : MapSt K V} {n : Nat}

/-- `KEqual` is an equivalence, `KHash` respects it, and a table without buckets counts as full
(the growth test compares the slot count with `0`). -/
structure MapOk (m : MapCfg K V) : Prop where
  refl : ∀ a, m.ke a a = true
  symm : ∀ a b, m.ke a b = true → m.ke b a = true
  trans : ∀ a b c, m.ke a b = true → m.ke b c = true → m.ke a c = true
  hash : ∀ a b, m.ke a b = true → m.kh a = m.kh b
  full_zero : ∀ n, m.full n 0 = true

theorem MapOk.lawful (h : MapOk m) : Lawful m.cfg :=
  { refl := fun a => h.refl a.1
    symm := fun a b => h.symm a.1 b.1
    trans := fun a b c => h.trans a.1 b.1 c.1
    hash := fun a b => h.hash a.1 b.1
    full_zero := h.full_zero }

theorem find?_uniq {α : Type} {c : Cfg α} (law : Lawful c) {l : List α} {k x : α} (hp : l.Pairwise (fun x y => c.eq x y = false))
    (hf : l.find? (c.eq k) = some x) {y : α} (hy : y ∈ l) (hk : c.eq k y = true) : y = x := by
  induction l with
  | nil => cases hy
  | cons z zs ih =>
    rw [List.pairwise_cons] at hp
    rw [List.find?_cons] at hf
    cases hz : c.eq k z with
    | true =>
      rw [hz] at hf
      injection hf with hf
      subst hf
      rcases List.mem_cons.1 hy with rfl | hy
      · rfl
      · have := hp.1 y hy
        rw [law.eq_left hz this] at hk; cases hk
    | false =>
      rw [hz] at hf
      rcases List.mem_cons.1 hy with rfl | hy
      · rw [hz] at hk; cases hk
      · exact ih hp.2 hf hy

/-- The association between a table and the specification state. -/
def MapR (m : MapCfg K V) (t : Table (K × V)) (s : MapSt K V) (n : Nat) : Prop := UR m.cfg t s.items s.used n

theorem mget_none {l : List (K × V)} {k : K} {v : V} (h : l.find? (m.cfg.eq (k, v)) = none) : mget m.ke l k = none := by
  unfold mget
  have : l.find? (fun p => m.ke k p.1) = none := h
  rw [this]; rfl

theorem mget_some {l : List (K × V)} {k : K} {v : V} {x : K × V} (h : l.find? (m.cfg.eq (k, v)) = some x) :
    mget m.ke l k = some x.2 := by
  unfold mget
  have : l.find? (fun p => m.ke k p.1) = some x := h
  rw [this]; rfl

theorem filter_absent {l : List (K × V)} {k : K} {v : V} (h : l.find? (m.cfg.eq (k, v)) = none) : mdel m.ke l k = l := by
  rw [List.find?_eq_none] at h
  unfold mdel
  rw [List.filter_eq_self]
  intro p hp
  have : m.ke k p.1 = false := by simpa [MapCfg.cfg, mapCfg] using h p hp
  simp [this]

theorem used_of_find {α : Type} {c : Cfg α} {t : Table α} {s : List α} {used : Bool} (h : UR c t s used n) {x : α} {f : α → Bool}
    (hx : s.find? f = some x) : used = true := by
  obtain ⟨bs, fl, hi, hp⟩ := h.repr
  have hm := hp.mem_iff.1 (List.mem_of_find?_eq_some hx)
  obtain ⟨q, hq, _⟩ := List.mem_map.1 hm
  have := hi.idx_lt hq
  rw [h.used]
  have : t.chains.length ≠ 0 := by omega
  simp [this]

theorem map_index (ok : MapOk m) (h : MapR m t s n) (hf : Fits m.cfg n) (hlt : s.items.length < n) (k : K) :
    ∃ t' loc x, mIndex m t k = .ok (t', loc) ∧ deref t' loc = .ok x ∧ m.ke k x.1 = true ∧
      x.2 = (mget m.ke s.items k).getD m.dv ∧
      MapR m t' (if (mget m.ke s.items k).isSome then s else ⟨(k, m.dv) :: s.items, true⟩) n ∧
      ∀ v, ∃ t'', store t' loc (x.1, v) = .ok t'' ∧ MapR m t'' ⟨mput m.ke s.items k v, true⟩ n := by
  have law := ok.lawful
  rcases ur_lookup law h (k, m.dv) with ⟨hno, e⟩ | ⟨x, loc, hx, e, e', hst⟩
  · obtain ⟨t', loc, e1, e2, e3, e4⟩ := ur_add law h hf hlt (k, m.dv) hno
    have hg := mget_none hno
    refine ⟨t', loc, (k, m.dv), by simp [mIndex, e, e1], e3, ok.refl k, by rw [hg]; rfl, by rw [hg]; exact e2, ?_⟩
    intro v
    obtain ⟨t'', g1, g2⟩ := e4 (k, v) (ok.refl k)
    exact ⟨t'', g1, by simpa [MapR, mput, hg] using g2⟩
  · have hg := mget_some hx
    have hk0 : m.cfg.eq (k, m.dv) x = true := List.find?_some hx
    have hk : m.ke k x.1 = true := hk0
    refine ⟨t, loc, x, by simp [mIndex, e], e', hk, by rw [hg]; rfl, by rw [hg]; exact h, ?_⟩
    intro v
    obtain ⟨t'', g1, g2⟩ := hst (x.1, v) (ok.refl x.1)
    refine ⟨t'', g1, ?_⟩
    have heq : s.items.map (fun y => if m.cfg.eq (k, m.dv) y then (x.1, v) else y) = mput m.ke s.items k v := by
      simp only [mput, hg, Option.isSome_some, if_true]
      apply List.map_congr_left
      intro y hy
      show (if m.ke k y.1 = true then (x.1, v) else y) = _
      by_cases hky : m.ke k y.1 = true
      · rw [if_pos hky, if_pos hky, find?_uniq law h.dist hx hy hky]
      · rw [if_neg hky, if_neg hky]
    rw [heq, used_of_find h hx] at g2
    exact g2

theorem map_lookup (ok : MapOk m) (h : MapR m t s n) (k : K) : mLookup m t k = .ok (mget m.ke s.items k) := by
  rcases ur_lookup ok.lawful h (k, m.dv) with ⟨hno, e⟩ | ⟨x, loc, hx, e, e', _⟩
  · rw [mget_none hno]; simp [mLookup, e]
  · rw [mget_some hx]; simp [mLookup, e, e']

theorem map_step (ok : MapOk m) (h : MapR m t s n) (hf : Fits m.cfg n) (op : MOp K V) :
    MapOver n s op ∨ (MapAborts m.ke s op ∧ mStep m t op = .abort) ∨
    ∃ t' o s', mStep m t op = .ok (t', o) ∧ MapStep m.ke m.dv s op o s' ∧ MapR m t' s' n := by
  have law := ok.lawful
  cases op with
  | set k v =>
    rcases Nat.lt_or_ge s.items.length n with hlt | hge
    · obtain ⟨t', loc, x, e1, e2, e3, e4, e5, e6⟩ := map_index ok h hf hlt k
      obtain ⟨t'', g1, g2⟩ := e6 v
      exact .inr (.inr ⟨t'', .unit, _, by simp [mStep, mSet, e1, e2, g1], ⟨rfl, rfl⟩, g2⟩)
    · exact .inl hge
  | index k =>
    rcases Nat.lt_or_ge s.items.length n with hlt | hge
    · obtain ⟨t', loc, x, e1, e2, e3, e4, e5, e6⟩ := map_index ok h hf hlt k
      exact .inr (.inr ⟨t', .val x.2, _, by simp [mStep, e1, e2], ⟨by rw [e4], rfl⟩, e5⟩)
    · exact .inl hge
  | addUnlessExist k =>
    rcases Nat.lt_or_ge s.items.length n with hlt | hge
    · right; right
      rcases ur_lookup law h (k, m.dv) with ⟨hno, e⟩ | ⟨x, loc, hx, e, e', hst⟩
      · obtain ⟨t', loc, e1, e2, e3, e4⟩ := ur_add law h hf hlt (k, m.dv) hno
        have hg := mget_none hno
        exact ⟨t', .bool true, ⟨(k, m.dv) :: s.items, true⟩, by simp [mStep, mAddUnlessExist, e, e1],
          ⟨by rw [hg]; rfl, by rw [hg]; rfl⟩, e2⟩
      · have hg := mget_some hx
        exact ⟨t, .bool false, s, by simp [mStep, mAddUnlessExist, e], ⟨by rw [hg]; rfl, by rw [hg]; rfl⟩, h⟩
    · exact .inl hge
  | lookup k => exact .inr (.inr ⟨t, _, s, by simp only [mStep, map_lookup ok h k, Res.bind_ok, Res.pure_eq], ⟨rfl, rfl⟩, h⟩)
  | exists' k =>
    exact .inr (.inr ⟨t, _, s, by simp only [mStep, mExists, map_lookup ok h k, Res.bind_ok, Res.pure_eq], ⟨rfl, rfl⟩, h⟩)
  | cGet k =>
    right
    cases hg : mget m.ke s.items k with
    | none => exact .inl ⟨hg, by simp [mStep, mCGet, map_lookup ok h k, hg]⟩
    | some v => exact .inr ⟨t, .val v, s, by simp [mStep, mCGet, map_lookup ok h k, hg], ⟨rfl, v, hg, rfl⟩, h⟩
  | dGet k =>
    right; right
    refine ⟨t, .val ((mget m.ke s.items k).getD m.dv), s, ?_, ⟨rfl, rfl⟩, h⟩
    cases hg : mget m.ke s.items k <;> simp [mStep, mDGet, map_lookup ok h k, hg]
  | remove k must =>
    right
    rcases ur_remove law h (k, m.dv) must with ⟨hno, e⟩ | ⟨hs, t', e, h'⟩
    · have hg := mget_none hno
      cases must with
      | true => exact .inl ⟨⟨rfl, hg⟩, by simp [mStep, mRemove, e]⟩
      | false =>
        refine .inr ⟨t, .bool false, ⟨mdel m.ke s.items k, s.used⟩, by simp [mStep, mRemove, e],
          ⟨.inr rfl, by rw [hg]; rfl, rfl⟩, ?_⟩
        rw [filter_absent hno]; exact h
    · obtain ⟨x, hx⟩ := Option.isSome_iff_exists.1 hs
      have hg := mget_some hx
      exact .inr ⟨t', .bool true, ⟨mdel m.ke s.items k, s.used⟩, by simp [mStep, mRemove, e],
        ⟨.inl (by rw [hg]; rfl), by rw [hg]; rfl, rfl⟩, h'⟩
  | findErase k =>
    right; right
    rcases ur_findErase law h (k, m.dv) with ⟨hno, e⟩ | ⟨hs, t', e, h'⟩
    · have hg := mget_none hno
      refine ⟨t, .bool false, ⟨mdel m.ke s.items k, s.used⟩, by simp [mStep, mFindErase, e], ⟨by rw [hg]; rfl, rfl⟩, ?_⟩
      rw [filter_absent hno]; exact h
    · obtain ⟨x, hx⟩ := Option.isSome_iff_exists.1 hs
      have hg := mget_some hx
      exact ⟨t', .bool true, ⟨mdel m.ke s.items k, s.used⟩, by simp [mStep, mFindErase, e], ⟨by rw [hg]; rfl, rfl⟩, h'⟩
  | clear => exact .inr (.inr ⟨clear t, .unit, ⟨[], false⟩, rfl, ⟨rfl, rfl⟩, ur_clear h⟩)
  | reserve want =>
    right
    rcases ur_reserve h want with ⟨h1, e⟩ | ⟨h1, h2, t', e, h'⟩
    · exact .inl ⟨h1, by simp [mStep, e]⟩
    · exact .inr ⟨t', .unit, s, by simp [mStep, e], ⟨h1, h2, rfl, rfl⟩, h'⟩
  | size => exact .inr (.inr ⟨t, .nat (size t), s, rfl, ⟨by rw [ur_size h], rfl⟩, h⟩)
  | keys =>
    obtain ⟨l, e, hl⟩ := ur_walk h
    exact .inr (.inr ⟨t, .keys (l.map (·.1)), s, by simp [mStep, mKeys, e], ⟨rfl, _, rfl, hl.map _⟩, h⟩)
  | walk =>
    obtain ⟨l, e, hl⟩ := ur_walk h
    exact .inr (.inr ⟨t, .list l, s, by simp [mStep, e], ⟨rfl, _, rfl, hl⟩, h⟩)
  | prune sel =>
    obtain ⟨t', seen, e, h1, h2, h3⟩ := ur_prune law h sel
    exact .inr (.inr ⟨t', .list seen, ⟨s.items.filter (fun p => !sel p), s.used⟩, by simp [mStep, e],
      ⟨rfl, seen, rfl, h2, h3⟩, h1⟩)

theorem map_run (ok : MapOk m) (hf : Fits m.cfg n) : ∀ (ops : List (MOp K V)) (t : Table (K × V)) (s : MapSt K V),
    MapR m t s n → MapRun n m.ke m.dv s ops (mRun m t ops) := by
  intro ops
  induction ops with
  | nil => intro t s _; rfl
  | cons op ops ih =>
    intro t s h
    rcases map_step ok h hf op with h1 | ⟨h1, e⟩ | ⟨t', o, s', e, h1, h2⟩
    · exact .inl h1
    · exact .inr (.inl ⟨h1, by simp [mRun, e]⟩)
    · refine .inr (.inr ⟨o, s', mRun m t' ops, h1, ih t' s' h2, ?_⟩)
      simp only [mRun, e, Res.bind_ok, Res.pure_eq]
      cases mRun m t' ops <;> simp

/-! ## The per-key reading -/

def IsPrune : MOp K V → Prop
  | .prune _ => True
  | _ => False

theorem find?_cons_ke (ke : K → K → Bool) (p : K × V) (l : List (K × V)) (k : K) :
    mget ke (p :: l) k = if ke k p.1 then some p.2 else mget ke l k := by
  unfold mget
  rw [List.find?_cons]
  cases ke k p.1 <;> simp

theorem mget_congr (ok : MapOk m) (l : List (K × V)) {k k' : K} (h : m.ke k' k = true) : mget m.ke l k' = mget m.ke l k := by
  induction l with
  | nil => rfl
  | cons p l ih =>
    rw [find?_cons_ke, find?_cons_ke, ih]
    have hh : m.ke k' p.1 = m.ke k p.1 := by
      have := ok.lawful.cong (x := (k', m.dv)) (y := (k, m.dv)) h p
      exact this
    rw [hh]

theorem mget_map (ok : MapOk m) (l : List (K × V)) (k k' : K) (v : V) :
    mget m.ke (l.map (fun p => if m.ke k' p.1 then (p.1, v) else p)) k =
      if m.ke k' k then (mget m.ke l k).map (fun _ => v) else mget m.ke l k := by
  induction l with
  | nil => simp [mget]
  | cons p l ih =>
    rw [List.map_cons, find?_cons_ke, find?_cons_ke, ih]
    have h1 : (if m.ke k' p.1 = true then (p.1, v) else p).1 = p.1 := by split <;> rfl
    rw [h1]
    by_cases hk : m.ke k p.1 = true
    · rw [if_pos hk, if_pos hk]
      have hh : m.ke k' p.1 = m.ke k' k := by
        cases h2 : m.ke k' k with
        | true => exact ok.trans _ _ _ h2 hk
        | false =>
          cases h3 : m.ke k' p.1 with
          | false => rfl
          | true => rw [ok.trans _ _ _ h3 (ok.symm _ _ hk)] at h2; cases h2
      rw [hh]
      by_cases h2 : m.ke k' k = true
      · rw [if_pos h2, if_pos h2]; rfl
      · rw [if_neg h2, if_neg h2]
    · rw [if_neg hk, if_neg hk]

theorem mget_mput (ok : MapOk m) (l : List (K × V)) (k k' : K) (v : V) :
    mget m.ke (mput m.ke l k' v) k = if m.ke k' k then some v else mget m.ke l k := by
  unfold mput
  split
  · rename_i hs
    rw [mget_map ok]
    split
    · rename_i hk
      rw [mget_congr ok l hk] at hs
      obtain ⟨w, hw⟩ := Option.isSome_iff_exists.1 hs
      rw [hw]; rfl
    · rfl
  · rw [find?_cons_ke]
    have : m.ke k k' = m.ke k' k := by
      have := ok.lawful.eq_comm (k, m.dv) (k', m.dv)
      exact this
    rw [this]

theorem mget_mdel (ok : MapOk m) (l : List (K × V)) (k k' : K) :
    mget m.ke (mdel m.ke l k') k = if m.ke k' k then none else mget m.ke l k := by
  unfold mdel
  induction l with
  | nil => simp [mget]
  | cons p l ih =>
    by_cases hp : m.ke k' p.1 = true
    · rw [List.filter_cons_of_neg (by simp [hp]), ih, find?_cons_ke]
      by_cases h2 : m.ke k' k = true
      · rw [if_pos h2, if_pos h2]
      · rw [if_neg h2, if_neg h2, if_neg]
        intro h3
        exact h2 (ok.trans _ _ _ hp (ok.symm _ _ h3))
    · rw [List.filter_cons_of_pos (by simp [hp]), find?_cons_ke, ih, find?_cons_ke]
      by_cases h2 : m.ke k' k = true
      · rw [if_pos h2, if_pos h2, if_neg]
        intro h3
        exact hp (ok.trans _ _ _ h2 h3)
      · rw [if_neg h2, if_neg h2]

/-- One specification step agrees with the per-key reading. -/
theorem lastStored_step (ok : MapOk m) {op : MOp K V} (hnp : ¬ IsPrune op) {o : MOut K V} {s s' : MapSt K V}
    (hst : MapStep m.ke m.dv s op o s') {hist : List (MOp K V)} (hs : ∀ k, mget m.ke s.items k = lastStored m.ke m.dv k hist)
    (k : K) : mget m.ke s'.items k = lastStored m.ke m.dv k (op :: hist) := by
  have hidx : ∀ k', mget m.ke (if (mget m.ke s.items k').isSome then s else ⟨(k', m.dv) :: s.items, true⟩ : MapSt K V).items k =
      if m.ke k' k then some ((mget m.ke s.items k).getD m.dv) else mget m.ke s.items k := by
    intro k'
    by_cases hk : m.ke k' k = true
    · rw [if_pos hk, mget_congr ok _ hk]
      cases hg : mget m.ke s.items k with
      | some w => simp [hg]
      | none =>
        simp only [Option.isSome_none, Bool.false_eq_true, if_false, find?_cons_ke, ok.symm _ _ hk, if_true, Option.getD_none]
    · rw [if_neg hk]
      split
      · rfl
      · rw [find?_cons_ke, if_neg]
        intro h3
        exact hk (ok.symm _ _ h3)
  cases op with
  | set k' v => obtain ⟨_, rfl⟩ := hst; rw [lastStored, ← hs]; exact mget_mput ok _ _ _ _
  | index k' => obtain ⟨_, rfl⟩ := hst; rw [lastStored, ← hs]; exact hidx k'
  | addUnlessExist k' => obtain ⟨_, rfl⟩ := hst; rw [lastStored, ← hs]; exact hidx k'
  | remove k' must => obtain ⟨_, _, rfl⟩ := hst; rw [lastStored, ← hs]; exact mget_mdel ok _ _ _
  | findErase k' => obtain ⟨_, rfl⟩ := hst; rw [lastStored, ← hs]; exact mget_mdel ok _ _ _
  | clear => obtain ⟨_, rfl⟩ := hst; rfl
  | lookup k' => obtain ⟨_, rfl⟩ := hst; exact hs k
  | exists' k' => obtain ⟨_, rfl⟩ := hst; exact hs k
  | cGet k' => obtain ⟨rfl, _⟩ := hst; exact hs k
  | dGet k' => obtain ⟨_, rfl⟩ := hst; exact hs k
  | reserve w => obtain ⟨_, _, _, rfl⟩ := hst; exact hs k
  | size => obtain ⟨_, rfl⟩ := hst; exact hs k
  | keys => obtain ⟨rfl, _⟩ := hst; exact hs k
  | walk => obtain ⟨rfl, _⟩ := hst; exact hs k
  | prune sel => exact absurd trivial hnp

theorem spec_growth {ke : K → K → Bool} {dv : V} {op : MOp K V} {o : MOut K V} {s s' : MapSt K V} (hst : MapStep ke dv s op o s') :
    s'.items.length ≤ s.items.length + 1 := by
  cases op with
  | set k v => obtain ⟨_, rfl⟩ := hst; simp only [mput]; split <;> simp
  | index k => obtain ⟨_, rfl⟩ := hst; split <;> simp
  | addUnlessExist k => obtain ⟨_, rfl⟩ := hst; split <;> simp
  | remove k must => obtain ⟨_, _, rfl⟩ := hst; exact Nat.le_succ_of_le (List.length_filter_le _ _)
  | findErase k => obtain ⟨_, rfl⟩ := hst; exact Nat.le_succ_of_le (List.length_filter_le _ _)
  | clear => obtain ⟨_, rfl⟩ := hst; simp
  | lookup k => obtain ⟨_, rfl⟩ := hst; simp
  | exists' k => obtain ⟨_, rfl⟩ := hst; simp
  | cGet k => obtain ⟨rfl, _⟩ := hst; simp
  | dGet k => obtain ⟨_, rfl⟩ := hst; simp
  | reserve w => obtain ⟨_, _, _, rfl⟩ := hst; simp
  | size => obtain ⟨_, rfl⟩ := hst; simp
  | keys => obtain ⟨rfl, _⟩ := hst; simp
  | walk => obtain ⟨rfl, _⟩ := hst; simp
  | prune sel => obtain ⟨rfl, _⟩ := hst; exact Nat.le_succ_of_le (List.length_filter_le _ _)

/-- Running a history leads to a state described by the per-key reading, and one more call can be
observed there. -/
theorem map_reach (ok : MapOk m) (hf : Fits m.cfg n) (last : MOp K V) : ∀ (ops : List (MOp K V)) (t : Table (K × V)) (s : MapSt K V)
    (hist : List (MOp K V)) (outs : List (MOut K V)),
    MapR m t s n → (∀ k, mget m.ke s.items k = lastStored m.ke m.dv k hist) → (∀ op ∈ ops, ¬ IsPrune op) →
    s.items.length + ops.length ≤ n → mRun m t (ops ++ [last]) = .ok outs →
    ∃ t' s' o t'', MapR m t' s' n ∧ (∀ k, mget m.ke s'.items k = lastStored m.ke m.dv k (ops.reverse ++ hist)) ∧
      mStep m t' last = .ok (t'', o) ∧ outs.getLast? = some o := by
  intro ops
  induction ops with
  | nil =>
    intro t s hist outs h hs _ _ hr
    simp only [List.nil_append, mRun] at hr
    rw [Res.bind_eq_ok] at hr
    obtain ⟨r, e, hr⟩ := hr
    simp only [Res.bind_ok, Res.pure_eq] at hr
    injection hr with hr
    exact ⟨t, s, r.2, r.1, h, hs, e, by rw [← hr]; rfl⟩
  | cons op ops ih =>
    intro t s hist outs h hs hnp hlen hr
    simp only [List.cons_append, mRun] at hr
    rw [Res.bind_eq_ok] at hr
    obtain ⟨r, e, hr⟩ := hr
    rw [Res.bind_eq_ok] at hr
    obtain ⟨outs', e', hr⟩ := hr
    simp only [Res.pure_eq] at hr
    injection hr with hr
    simp only [List.length_cons] at hlen
    rcases map_step ok h hf op with h1 | ⟨_, e2⟩ | ⟨t', o, s', e2, h1, h2⟩
    · exfalso
      cases op <;> simp [MapOver] at h1 <;> omega
    · rw [e2] at e; cases e
    · rw [e2] at e
      injection e with e
      subst e
      have hg := spec_growth h1
      obtain ⟨t1, s1, o1, t2, g1, g2, g3, g4⟩ := ih t' s' (op :: hist) outs' h2
        (lastStored_step ok (hnp op (by simp)) h1 hs) (fun q hq => hnp q (by simp [hq])) (by omega) e'
      refine ⟨t1, s1, o1, t2, g1, ?_, g3, ?_⟩
      · simpa using g2
      · rw [← hr, List.getLast?_cons, g4]; rfl

end Verif.Hash
