import Verif.Hash.MapLemmas
import Verif.Hash.SetSpec

/-! # Simulations for `HashUnique` and `RotatingHashMap` -/

namespace Verif.Hash

theorem UR.perm {α : Type} {c : Cfg α} {t : Table α} {s s' : List α} {used : Bool} {n : Nat} (law : Lawful c)
    (h : UR c t s used n) (hp : s.Perm s') : UR c t s' used n := by
  obtain ⟨bs, fl, hi, hq⟩ := h.repr
  exact ⟨⟨bs, fl, hi, hp.symm.trans hq⟩, pairwise_perm law hp h.dist, h.used, h.bound⟩

section
variable {K : Type} {c : Cfg K} {t : Table K} {s : SetSt K} {n : Nat}

theorem umem_none {l : List K} {k : K} (h : l.find? (c.eq k) = none) : umem c.eq l k = false := by
  rw [List.find?_eq_none] at h
  rw [umem, List.any_eq_false]
  exact h

theorem umem_some {l : List K} {k x : K} (h : l.find? (c.eq k) = some x) : umem c.eq l k = true := by
  rw [umem, List.any_eq_true]
  exact ⟨x, List.mem_of_find?_eq_some h, List.find?_some h⟩

theorem set_step (law : Lawful c) (h : UR c t s.keys s.used n) (hf : Fits c n) (op : UOp K) :
    SetOver n s op ∨ (SetAborts c.eq s op ∧ uStep c t op = .abort) ∨
    ∃ t' o s', uStep c t op = .ok (t', o) ∧ SetStep c.eq s op o s' ∧ UR c t' s'.keys s'.used n := by
  cases op with
  | exists' k =>
    right; right
    rcases ur_lookup law h k with ⟨hno, e⟩ | ⟨x, loc, hx, e, e', _⟩
    · exact ⟨t, .bool false, s, by simp [uStep, uExists, e], ⟨by rw [umem_none hno], rfl⟩, h⟩
    · exact ⟨t, .bool true, s, by simp [uStep, uExists, e], ⟨by rw [umem_some hx], rfl⟩, h⟩
  | add k =>
    rcases Nat.lt_or_ge s.keys.length n with hlt | hge
    · right; right
      rcases ur_lookup law h k with ⟨hno, e⟩ | ⟨x, loc, hx, e, e', _⟩
      · obtain ⟨t', loc, e1, e2, e3, e4⟩ := ur_add law h hf hlt k hno
        exact ⟨t', .bool true, ⟨k :: s.keys, true⟩, by simp [uStep, uAdd, e, e1],
          ⟨by rw [umem_none hno]; rfl, by rw [umem_none hno]; rfl⟩, e2⟩
      · exact ⟨t, .bool false, s, by simp [uStep, uAdd, e], ⟨by rw [umem_some hx]; rfl, by rw [umem_some hx]; rfl⟩, h⟩
    · exact .inl hge
  | addOrReplace k =>
    rcases Nat.lt_or_ge s.keys.length n with hlt | hge
    · right; right
      rcases ur_lookup law h k with ⟨hno, e⟩ | ⟨x, loc, hx, e, e', _⟩
      · obtain ⟨t', loc, e1, e2, e3, e4⟩ := ur_add law h hf hlt k hno
        exact ⟨t', .bool false, ⟨k :: s.keys, true⟩, by simp [uStep, uAddOrReplace, addOrReplace, e, e1],
          ⟨by rw [umem_none hno], by rw [umem_none hno]; rfl⟩, e2⟩
      · exact ⟨t, .bool true, s, by simp [uStep, uAddOrReplace, addOrReplace, e],
          ⟨by rw [umem_some hx], by rw [umem_some hx]; rfl⟩, h⟩
    · exact .inl hge
  | remove k must =>
    right
    rcases ur_remove law h k must with ⟨hno, e⟩ | ⟨hs, t', e, h'⟩
    · cases must with
      | true => exact .inl ⟨⟨rfl, umem_none hno⟩, by simp [uStep, uRemove, e]⟩
      | false =>
        refine .inr ⟨t, .unit, ⟨s.keys.filter (fun x => !c.eq k x), s.used⟩, by simp [uStep, uRemove, e], ⟨.inr rfl, rfl, rfl⟩, ?_⟩
        have : s.keys.filter (fun x => !c.eq k x) = s.keys := by
          rw [List.find?_eq_none] at hno
          rw [List.filter_eq_self]
          intro x hx
          simpa using hno x hx
        rw [this]; exact h
    · obtain ⟨x, hx⟩ := Option.isSome_iff_exists.1 hs
      exact .inr ⟨t', .unit, ⟨s.keys.filter (fun x => !c.eq k x), s.used⟩, by simp [uStep, uRemove, e],
        ⟨.inl (umem_some hx), rfl, rfl⟩, h'⟩
  | clear => exact .inr (.inr ⟨clear t, .unit, ⟨[], false⟩, rfl, ⟨rfl, rfl⟩, ur_clear h⟩)
  | reserve want =>
    right
    rcases ur_reserve h want with ⟨h1, e⟩ | ⟨h1, h2, t', e, h'⟩
    · exact .inl ⟨h1, by simp [uStep, e]⟩
    · exact .inr ⟨t', .unit, s, by simp [uStep, e], ⟨h1, h2, rfl, rfl⟩, h'⟩
  | size => exact .inr (.inr ⟨t, .nat (size t), s, rfl, ⟨by rw [ur_size h], rfl⟩, h⟩)
  | walk =>
    obtain ⟨l, e, hl⟩ := ur_walk h
    exact .inr (.inr ⟨t, .list l, s, by simp [uStep, e], ⟨rfl, _, rfl, hl⟩, h⟩)

theorem set_run (law : Lawful c) (hf : Fits c n) : ∀ (ops : List (UOp K)) (t : Table K) (s : SetSt K),
    UR c t s.keys s.used n → SetRun n c.eq s ops (uRun c t ops) := by
  intro ops
  induction ops with
  | nil => intro t s _; rfl
  | cons op ops ih =>
    intro t s h
    rcases set_step law h hf op with h1 | ⟨h1, e⟩ | ⟨t', o, s', e, h1, h2⟩
    · exact .inl h1
    · exact .inr (.inl ⟨h1, by simp [uRun, e]⟩)
    · refine .inr (.inr ⟨o, s', uRun c t' ops, h1, ih t' s' h2, ?_⟩)
      simp only [uRun, e, Res.bind_ok, Res.pure_eq]
      cases uRun c t' ops <;> simp

/-- One specification step agrees with "added and not removed since". -/
theorem addedSince_step (law : Lawful c) {op : UOp K} {o : UOut K} {s s' : SetSt K} (hst : SetStep c.eq s op o s')
    {hist : List (UOp K)} (hs : ∀ k, umem c.eq s.keys k = addedSince c.eq k hist) (k : K) :
    umem c.eq s'.keys k = addedSince c.eq k (op :: hist) := by
  have hadd : ∀ k', umem c.eq (if umem c.eq s.keys k' then s else ⟨k' :: s.keys, true⟩ : SetSt K).keys k =
      if c.eq k' k then true else umem c.eq s.keys k := by
    intro k'
    have hcons : umem c.eq (k' :: s.keys) k = (c.eq k k' || umem c.eq s.keys k) := by simp [umem]
    by_cases hk : c.eq k' k = true
    · rw [if_pos hk]
      split
      · rename_i hm
        unfold umem at hm ⊢
        rw [List.any_eq_true] at hm ⊢
        obtain ⟨x, hx, hkx⟩ := hm
        exact ⟨x, hx, by rw [← law.cong hk]; exact hkx⟩
      · rw [hcons, law.symm _ _ hk]; rfl
    · rw [if_neg hk]
      split
      · rfl
      · rw [hcons, law.eq_comm]
        simp [hk]
  cases op with
  | add k' => obtain ⟨_, rfl⟩ := hst; rw [addedSince, ← hs]; exact hadd k'
  | addOrReplace k' => obtain ⟨_, rfl⟩ := hst; rw [addedSince, ← hs]; exact hadd k'
  | remove k' must =>
    obtain ⟨_, _, rfl⟩ := hst
    rw [addedSince, ← hs]
    by_cases hk : c.eq k' k = true
    · rw [if_pos hk, umem, List.any_eq_false]
      intro x hx
      have := (List.mem_filter.1 hx).2
      rw [law.cong hk] at this
      simpa using this
    · rw [if_neg hk]
      unfold umem
      rw [Bool.eq_iff_iff, List.any_eq_true, List.any_eq_true]
      constructor
      · rintro ⟨x, hx, hkx⟩; exact ⟨x, (List.mem_filter.1 hx).1, hkx⟩
      · rintro ⟨x, hx, hkx⟩
        refine ⟨x, List.mem_filter.2 ⟨hx, ?_⟩, hkx⟩
        cases h3 : c.eq k' x with
        | false => rfl
        | true => exact absurd (law.trans _ _ _ h3 (law.symm _ _ hkx)) hk
  | clear => obtain ⟨_, rfl⟩ := hst; rfl
  | exists' k' => obtain ⟨_, rfl⟩ := hst; exact hs k
  | reserve w => obtain ⟨_, _, _, rfl⟩ := hst; exact hs k
  | size => obtain ⟨_, rfl⟩ := hst; exact hs k
  | walk => obtain ⟨rfl, _⟩ := hst; exact hs k

theorem set_growth {ke : K → K → Bool} {op : UOp K} {o : UOut K} {s s' : SetSt K} (hst : SetStep ke s op o s') :
    s'.keys.length ≤ s.keys.length + 1 := by
  cases op with
  | add k => obtain ⟨_, rfl⟩ := hst; split <;> simp
  | addOrReplace k => obtain ⟨_, rfl⟩ := hst; split <;> simp
  | remove k must => obtain ⟨_, _, rfl⟩ := hst; exact Nat.le_succ_of_le (List.length_filter_le _ _)
  | clear => obtain ⟨_, rfl⟩ := hst; simp
  | exists' k => obtain ⟨_, rfl⟩ := hst; simp
  | reserve w => obtain ⟨_, _, _, rfl⟩ := hst; simp
  | size => obtain ⟨_, rfl⟩ := hst; simp
  | walk => obtain ⟨rfl, _⟩ := hst; simp

theorem set_reach (law : Lawful c) (hf : Fits c n) (last : UOp K) : ∀ (ops : List (UOp K)) (t : Table K) (s : SetSt K)
    (hist : List (UOp K)) (outs : List (UOut K)),
    UR c t s.keys s.used n → (∀ k, umem c.eq s.keys k = addedSince c.eq k hist) →
    s.keys.length + ops.length ≤ n → uRun c t (ops ++ [last]) = .ok outs →
    ∃ (t' : Table K) (s' : SetSt K) (o : UOut K) (t'' : Table K), UR c t' s'.keys s'.used n ∧ s'.keys.length ≤ s.keys.length + ops.length ∧
      (∀ k, umem c.eq s'.keys k = addedSince c.eq k (ops.reverse ++ hist)) ∧
      uStep c t' last = .ok (t'', o) ∧ outs.getLast? = some o := by
  intro ops
  induction ops with
  | nil =>
    intro t s hist outs h hs _ hr
    simp only [List.nil_append, uRun] at hr
    rw [Res.bind_eq_ok] at hr
    obtain ⟨r, e, hr⟩ := hr
    simp only [Res.bind_ok, Res.pure_eq] at hr
    injection hr with hr
    exact ⟨t, s, r.2, r.1, h, by simp, hs, e, by rw [← hr]; rfl⟩
  | cons op ops ih =>
    intro t s hist outs h hs hlen hr
    simp only [List.cons_append, uRun] at hr
    rw [Res.bind_eq_ok] at hr
    obtain ⟨r, e, hr⟩ := hr
    rw [Res.bind_eq_ok] at hr
    obtain ⟨outs', e', hr⟩ := hr
    simp only [Res.pure_eq] at hr
    injection hr with hr
    simp only [List.length_cons] at hlen
    rcases set_step law h hf op with h1 | ⟨_, e2⟩ | ⟨t', o, s', e2, h1, h2⟩
    · exfalso
      cases op <;> simp [SetOver] at h1 <;> omega
    · rw [e2] at e; cases e
    · rw [e2] at e
      injection e with e
      subst e
      have hg := set_growth h1
      obtain ⟨t1, s1, o1, t2, g1, g0, g2, g3, g4⟩ := ih t' s' (op :: hist) outs' h2
        (addedSince_step law h1 hs) (by omega) e'
      refine ⟨t1, s1, o1, t2, g1, by rw [List.length_cons]; omega, ?_, g3, ?_⟩
      · simpa using g2
      · rw [← hr, List.getLast?_cons, g4]; rfl

end

/-! ## RotatingHashMap -/

section
variable {K V : Type} {m : MapCfg K V} {r : Rot K V} {s : List (AgedEntry K V)} {n : Nat}

/-- Entries of one age. -/
def ofAge (a : Nat) (l : List (AgedEntry K V)) : List (K × V) := (l.filter (fun e => e.age = a)).map pairOf

theorem ofAge_perm {a : Nat} {l l' : List (AgedEntry K V)} (h : l.Perm l') : (ofAge a l).Perm (ofAge a l') :=
  (h.filter _).map _

theorem ofAge_cons (a : Nat) (e : AgedEntry K V) (l : List (AgedEntry K V)) :
    ofAge a (e :: l) = if e.age = a then pairOf e :: ofAge a l else ofAge a l := by
  unfold ofAge
  by_cases h : e.age = a
  · simp [h]
  · simp [h]

structure RotR (m : MapCfg K V) (r : Rot K V) (s : List (AgedEntry K V)) (n : Nat) : Prop where
  recent : ∃ u, UR m.cfg r.recent (ofAge 0 s) u n
  old : ∃ u, UR m.cfg r.old (ofAge 1 s) u n
  dist : s.Pairwise (fun a b => m.ke a.key b.key = false)
  age : ∀ e ∈ s, e.age = 0 ∨ e.age = 1

theorem ke_comm (ok : MapOk m) (a b : K) : m.ke a b = m.ke b a := ok.lawful.eq_comm (a, m.dv) (b, m.dv)

theorem ke_cong (ok : MapOk m) {a b : K} (h : m.ke a b = true) (x : K) : m.ke a x = m.ke b x :=
  ok.lawful.cong (x := (a, m.dv)) (y := (b, m.dv)) h (x, m.dv)

theorem dist_perm (ok : MapOk m) {l l' : List (AgedEntry K V)} (h : l.Perm l')
    (hd : l.Pairwise (fun a b => m.ke a.key b.key = false)) : l'.Pairwise (fun a b => m.ke a.key b.key = false) :=
  (h.pairwise_iff (fun {a b} h => by rw [ke_comm ok]; exact h)).1 hd

theorem RotR.perm (ok : MapOk m) (h : RotR m r s n) {s' : List (AgedEntry K V)} (hp : s.Perm s') : RotR m r s' n := by
  obtain ⟨u1, h1⟩ := h.recent
  obtain ⟨u2, h2⟩ := h.old
  exact ⟨⟨u1, h1.perm ok.lawful (ofAge_perm hp)⟩, ⟨u2, h2.perm ok.lawful (ofAge_perm hp)⟩, dist_perm ok hp h.dist,
    fun e he => h.age e (hp.mem_iff.2 he)⟩

theorem aget_none {k : K} (h : aget m.ke s k = none) : ∀ x ∈ s, m.ke k x.key = false := by
  intro x hx
  have := List.find?_eq_none.1 h x hx
  simpa using this

theorem aget_split (ok : MapOk m) {k : K} {e : AgedEntry K V} (hd : s.Pairwise (fun a b => m.ke a.key b.key = false))
    (h : aget m.ke s k = some e) :
    m.ke k e.key = true ∧ ∃ q, s.Perm (e :: q) ∧ ∀ x ∈ q, m.ke k x.key = false := by
  have hk : m.ke k e.key = true := by
    have := List.find?_some h
    simpa using this
  obtain ⟨as, bs, hs⟩ := List.append_of_mem (List.mem_of_find?_eq_some h)
  have hp : s.Perm (e :: (as ++ bs)) := by rw [hs]; exact List.perm_middle
  refine ⟨hk, as ++ bs, hp, ?_⟩
  have := dist_perm ok hp hd
  rw [List.pairwise_cons] at this
  intro x hx
  rw [ke_cong ok hk]
  exact this.1 x hx

theorem touch_split {k : K} {e : AgedEntry K V} {q : List (AgedEntry K V)} (hk : m.ke k e.key = true) (hp : s.Perm (e :: q))
    (hq : ∀ x ∈ q, m.ke k x.key = false) (f : AgedEntry K V → AgedEntry K V) :
    (s.map (fun e => if m.ke k e.key then f e else e)).Perm (f e :: q) := by
  have h1 := hp.map (fun e => if m.ke k e.key then f e else e)
  rw [List.map_cons, if_pos hk] at h1
  have : q.map (fun e => if m.ke k e.key then f e else e) = q := by
    rw [List.map_congr_left (g := id), List.map_id]
    intro x hx
    simp [hq x hx]
  rwa [this] at h1

theorem touch_absent {k : K} (h : ∀ x ∈ s, m.ke k x.key = false) : touch m.ke s k = s := by
  unfold touch
  rw [List.map_congr_left (g := id), List.map_id]
  intro x hx
  simp [h x hx]

theorem find_ofAge_none {a : Nat} {k : K} {v : V} {l : List (AgedEntry K V)} (h : ∀ x ∈ l, m.ke k x.key = false) :
    (ofAge a l).find? (m.cfg.eq (k, v)) = none := by
  rw [List.find?_eq_none]
  intro p hp
  obtain ⟨x, hx, rfl⟩ := List.mem_map.1 hp
  have := h x (List.mem_filter.1 hx).1
  show ¬ (m.ke k x.key = true)
  simp [this]

/-- What `lookup` does in the two-table structure. -/
theorem rot_lookup (ok : MapOk m) (h : RotR m r s n) (hf : Fits m.cfg n) (hlt : s.length < n) (k : K) :
    (aget m.ke s k = none ∧ rLookup m r k = .ok (r, none)) ∨
    ∃ e r' loc, aget m.ke s k = some e ∧ rLookup m r k = .ok (r', some loc) ∧ RotR m r' (touch m.ke s k) n ∧
      ∃ x, deref r'.recent loc = .ok x ∧ x = pairOf (refresh k e) ∧
      ∀ v, ∃ t'', store r'.recent loc (x.1, v) = .ok t'' ∧
        RotR m ⟨t'', r'.old⟩ (s.map (fun e => if m.ke k e.key then { refresh k e with val := v } else e)) n := by
  have law := ok.lawful
  cases hg : aget m.ke s k with
  | none =>
    left
    refine ⟨rfl, ?_⟩
    have hno := aget_none hg
    obtain ⟨u1, h1⟩ := h.recent
    obtain ⟨u2, h2⟩ := h.old
    rcases ur_lookup law h1 (k, m.dv) with ⟨_, e⟩ | ⟨x, loc, hx, _⟩
    · rcases ur_lookup law h2 (k, m.dv) with ⟨_, e'⟩ | ⟨x, loc, hx, _⟩
      · simp [rLookup, e, e']
      · rw [find_ofAge_none hno] at hx; cases hx
    · rw [find_ofAge_none hno] at hx; cases hx
  | some e =>
    right
    obtain ⟨hk, q, hp, hq⟩ := aget_split ok h.dist hg
    have h' := h.perm ok hp
    have hd := h'.dist
    rw [List.pairwise_cons] at hd
    have hdist : ∀ e' : AgedEntry K V, m.ke k e'.key = true → (e' :: q).Pairwise (fun a b => m.ke a.key b.key = false) := by
      intro e' he'
      rw [List.pairwise_cons]
      refine ⟨?_, hd.2⟩
      intro x hx
      rw [← ke_cong ok he']
      exact hq x hx
    obtain ⟨u1, h1⟩ := h'.recent
    obtain ⟨u2, h2⟩ := h'.old
    rw [ofAge_cons] at h1 h2
    have hagq : ∀ x ∈ q, x.age = 0 ∨ x.age = 1 := fun x hx => h'.age x (by simp [hx])
    rcases h'.age e (by simp) with ha | ha
    · -- recent
      rw [if_pos ha] at h1
      rw [if_neg (by omega)] at h2
      have href : refresh k e = e := by simp [refresh, ha]
      have hfind : (pairOf e :: ofAge 0 q).find? (m.cfg.eq (k, m.dv)) = some (pairOf e) := by
        rw [List.find?_cons]
        have : m.cfg.eq (k, m.dv) (pairOf e) = true := hk
        rw [this]
      rcases ur_lookup law h1 (k, m.dv) with ⟨hno, _⟩ | ⟨x, loc, hx, e1, e2, e3⟩
      · rw [hfind] at hno; cases hno
      · rw [hfind] at hx
        injection hx with hx
        subst hx
        refine ⟨e, r, loc, rfl, by simp [rLookup, e1], ?_, pairOf e, e2, by rw [href], ?_⟩
        · have ht := touch_split hk hp hq (refresh k)
          rw [href] at ht
          exact h'.perm ok ht.symm
        · intro v
          obtain ⟨t'', g1, g2⟩ := e3 (e.key, v) (ok.refl e.key)
          refine ⟨t'', g1, ?_⟩
          have ht := touch_split hk hp hq (fun e => { refresh k e with val := v })
          refine RotR.perm ok ?_ ht.symm
          refine ⟨⟨u1, ?_⟩, ⟨u2, ?_⟩, hdist _ (by simp only [href]; exact hk), ?_⟩
          · rw [ofAge_cons, if_pos (by simp only [href]; exact ha)]
            have hm : (pairOf e :: ofAge 0 q).map (fun y => if m.cfg.eq (k, m.dv) y then (e.key, v) else y) =
                (e.key, v) :: ofAge 0 q := by
              have h3 : m.cfg.eq (k, m.dv) (pairOf e) = true := hk
              rw [List.map_cons, if_pos h3, List.map_congr_left (g := id), List.map_id]
              intro y hy
              obtain ⟨x, hx, rfl⟩ := List.mem_map.1 hy
              have h4 : m.cfg.eq (k, m.dv) (pairOf x) = false := hq x (List.mem_filter.1 hx).1
              simp [h4]
            rw [hm] at g2
            simpa [pairOf, href] using g2
          · rw [ofAge_cons, if_neg (by simp only [href]; omega)]
            exact h2
          · intro x hx
            rcases List.mem_cons.1 hx with rfl | hx
            · left; simp only [href]; exact ha
            · exact hagq x hx
    · -- old
      rw [if_neg (by omega)] at h1
      rw [if_pos ha] at h2
      have href : refresh k e = ⟨k, e.val, 0⟩ := by simp [refresh, ha]
      have hfind : (pairOf e :: ofAge 1 q).find? (m.cfg.eq (k, m.dv)) = some (pairOf e) := by
        rw [List.find?_cons]
        have : m.cfg.eq (k, m.dv) (pairOf e) = true := hk
        rw [this]
      have hno0 : (ofAge 0 q).find? (m.cfg.eq (k, m.dv)) = none := find_ofAge_none hq
      have hl0 : (ofAge 0 q).length < n := by
        have : (ofAge 0 q).length ≤ q.length := by
          unfold ofAge; rw [List.length_map]; exact List.length_filter_le _ _
        have := hp.length_eq
        rw [List.length_cons] at this
        omega
      rcases ur_lookup law h1 (k, m.dv) with ⟨_, e1⟩ | ⟨x, loc, hx, _⟩
      · rcases ur_lookup law h2 (k, m.dv) with ⟨hno, _⟩ | ⟨x, loc, hx, e2, e3, _⟩
        · rw [hfind] at hno; cases hno
        · rw [hfind] at hx
          injection hx with hx
          subst hx
          obtain ⟨t', loc', f1, f2, f3, f4⟩ := ur_add law h1 hf hl0 (k, m.dv) hno0
          have fidx : mIndex m r.recent k = .ok (t', loc') := by simp [mIndex, e1, f1]
          obtain ⟨t'', g1, g2⟩ := f4 (k, e.val) (ok.refl k)
          rcases ur_remove law h2 (k, m.dv) true with ⟨hno, _⟩ | ⟨_, told, g3, g4⟩
          · rw [hfind] at hno; cases hno
          · have hfil : (pairOf e :: ofAge 1 q).filter (fun y => !m.cfg.eq (k, m.dv) y) = ofAge 1 q := by
              have h3 : m.cfg.eq (k, m.dv) (pairOf e) = true := hk
              rw [List.filter_cons_of_neg (by simp [h3]), List.filter_eq_self]
              intro y hy
              obtain ⟨x, hx, rfl⟩ := List.mem_map.1 hy
              have h4 : m.cfg.eq (k, m.dv) (pairOf x) = false := hq x (List.mem_filter.1 hx).1
              simp [h4]
            rw [hfil] at g4
            have hnew : ∀ (w : V), RotR m ⟨t'', told⟩ (⟨k, w, 0⟩ :: q) n ↔ ∃ u, UR m.cfg t'' ((k, w) :: ofAge 0 q) u n := by
              intro w
              constructor
              · rintro ⟨h3, _, _, _⟩
                simpa [ofAge_cons, pairOf] using h3
              · intro h3
                refine ⟨by simpa [ofAge_cons, pairOf] using h3, ⟨u2, by simpa [ofAge_cons] using g4⟩,
                  hdist _ (ok.refl k), ?_⟩
                intro x hx
                rcases List.mem_cons.1 hx with rfl | hx
                · left; rfl
                · exact hagq x hx
            have hder : deref t'' loc' = .ok (k, e.val) := by
              have h5 : (rd t'.chains loc' >>= fun e0 => wr t'.chains loc' { e0 with data := (k, e.val) } >>= fun ch =>
                  pure { t' with chains := ch }) = .ok t'' := g1
              rw [Res.bind_eq_ok] at h5
              obtain ⟨e0, h6, h5⟩ := h5
              rw [Res.bind_eq_ok] at h5
              obtain ⟨ch, h7, h5⟩ := h5
              simp only [Res.pure_eq] at h5
              injection h5 with h5
              rw [← h5]
              unfold wr at h7
              split at h7
              · rename_i hlt'
                injection h7 with h7
                rw [← h7]
                simp [deref, rd, List.getElem?_set_self hlt']
              · cases h7
            refine ⟨e, ⟨t'', told⟩, loc', rfl, ?_, ?_, (k, e.val), hder, by rw [href]; rfl, ?_⟩
            · simp [rLookup, e1, e2, e3, fidx, f3, pairOf, g1, mRemove, g3]
            · have ht := touch_split hk hp hq (refresh k)
              rw [href] at ht
              exact RotR.perm ok ((hnew _).2 ⟨_, g2⟩) ht.symm
            · intro v
              have hfind' : ((k, e.val) :: ofAge 0 q).find? (m.cfg.eq (k, m.dv)) = some (k, e.val) := by
                rw [List.find?_cons]
                have : m.cfg.eq (k, m.dv) (k, e.val) = true := ok.refl k
                rw [this]
              obtain ⟨t3, g5, g6⟩ := f4 (k, v) (ok.refl k)
              have hst : store t'' loc' (k, v) = store t' loc' (k, v) := by
                have h5 : (rd t'.chains loc' >>= fun e0 => wr t'.chains loc' { e0 with data := (k, e.val) } >>= fun ch =>
                    pure { t' with chains := ch }) = .ok t'' := g1
                rw [Res.bind_eq_ok] at h5
                obtain ⟨e0, h6, h5⟩ := h5
                rw [Res.bind_eq_ok] at h5
                obtain ⟨ch, h7, h5⟩ := h5
                simp only [Res.pure_eq] at h5
                injection h5 with h5
                rw [← h5]
                unfold wr at h7
                split at h7
                · rename_i hlt'
                  injection h7 with h7
                  rw [← h7]
                  simp [store, rd, wr, hlt', List.set_set]
                  unfold rd at h6
                  split at h6
                  · rename_i v0 hv0
                    injection h6 with h6
                    subst h6
                    rw [List.getElem?_eq_getElem hlt'] at hv0
                    injection hv0 with hv0
                    simp [hv0]
                  · cases h6
                · cases h7
              refine ⟨t3, by rw [hst]; exact g5, ?_⟩
              have ht := touch_split hk hp hq (fun e => { refresh k e with val := v })
              simp only [href] at ht
              refine RotR.perm ok ?_ ht.symm
              refine ⟨⟨true, by simpa [ofAge_cons, pairOf] using g6⟩, ⟨u2, by simpa [ofAge_cons] using g4⟩,
                hdist _ (ok.refl k), ?_⟩
              intro x hx
              rcases List.mem_cons.1 hx with rfl | hx
              · left; rfl
              · exact hagq x hx
      · rw [hno0] at hx; cases hx

/-- `operator[]` on an absent key. -/
theorem rot_index_absent (ok : MapOk m) (h : RotR m r s n) (hf : Fits m.cfg n) (hlt : s.length < n) (k : K)
    (hg : aget m.ke s k = none) :
    ∃ t' loc, mIndex m r.recent k = .ok (t', loc) ∧ RotR m ⟨t', r.old⟩ (⟨k, m.dv, 0⟩ :: s) n ∧
      deref t' loc = .ok (k, m.dv) ∧
      ∀ v, ∃ t'', store t' loc (k, v) = .ok t'' ∧ RotR m ⟨t'', r.old⟩ (⟨k, v, 0⟩ :: s) n := by
  have hno := aget_none hg
  obtain ⟨u1, h1⟩ := h.recent
  have hno0 : (ofAge 0 s).find? (m.cfg.eq (k, m.dv)) = none := find_ofAge_none hno
  have hl0 : (ofAge 0 s).length < n := by
    have : (ofAge 0 s).length ≤ s.length := by
      unfold ofAge; rw [List.length_map]; exact List.length_filter_le _ _
    omega
  obtain ⟨t', loc', f1, f2, f3, f4⟩ := ur_add ok.lawful h1 hf hl0 (k, m.dv) hno0
  have hnew : ∀ (t : Table (K × V)) (w : V), UR m.cfg t ((k, w) :: ofAge 0 s) true n → RotR m ⟨t, r.old⟩ (⟨k, w, 0⟩ :: s) n := by
    intro t w hu
    obtain ⟨u2, h2⟩ := h.old
    refine ⟨⟨true, by simpa [ofAge_cons, pairOf] using hu⟩, ⟨u2, by simpa [ofAge_cons] using h2⟩, ?_, ?_⟩
    · rw [List.pairwise_cons]; exact ⟨hno, h.dist⟩
    · intro x hx
      rcases List.mem_cons.1 hx with rfl | hx
      · left; rfl
      · exact h.age x hx
  refine ⟨t', loc', ?_, hnew _ _ f2, f3, ?_⟩
  · rcases ur_lookup ok.lawful h1 (k, m.dv) with ⟨_, e⟩ | ⟨x, loc, hx, _⟩
    · simp [mIndex, e, f1]
    · rw [hno0] at hx; cases hx
  · intro v
    obtain ⟨t'', g1, g2⟩ := f4 (k, v) (ok.refl k)
    exact ⟨t'', g1, hnew _ _ g2⟩

theorem ofAge_length (a : Nat) (l : List (AgedEntry K V)) : (ofAge a l).length = (l.filter (fun e => e.age = a)).length := by
  unfold ofAge; rw [List.length_map]

theorem ofAge_split (h : ∀ e ∈ s, e.age = 0 ∨ e.age = 1) : (ofAge 0 s ++ ofAge 1 s).Perm (s.map pairOf) := by
  induction s with
  | nil => exact List.Perm.refl _
  | cons e s ih =>
    have ih := ih (fun x hx => h x (by simp [hx]))
    rw [ofAge_cons, ofAge_cons, List.map_cons]
    rcases h e (by simp) with ha | ha
    · rw [if_pos ha, if_neg (by omega), List.cons_append]
      exact List.Perm.cons _ ih
    · rw [if_neg (by omega), if_pos ha]
      exact List.perm_middle.trans (List.Perm.cons _ ih)

theorem mexists_ok (ok : MapOk m) {t : Table (K × V)} {l : List (K × V)} {u : Bool} (h : UR m.cfg t l u n) (k : K) :
    mExists m t k = .ok (mget m.ke l k).isSome := by
  have := map_lookup (s := ⟨l, u⟩) ok h k
  simp [mExists, this]

theorem mget_ofAge (ok : MapOk m) (h : RotR m r s n) (k : K) (a : Nat) :
    (mget m.ke (ofAge a s) k).isSome = (((aget m.ke s k).map (·.age)) == some a) := by
  cases hg : aget m.ke s k with
  | none =>
    have hn : mget m.ke (ofAge a s) k = none := mget_none (v := m.dv) (find_ofAge_none (aget_none hg))
    rw [hn]; rfl
  | some e =>
    obtain ⟨hk, q, hp, hq⟩ := aget_split ok h.dist hg
    have hperm := ofAge_perm (a := a) hp
    have hd : (ofAge a s).Pairwise (fun x y => m.cfg.eq x y = false) := by
      unfold ofAge
      rw [List.pairwise_map]
      exact h.dist.filter _
    have hfp := find?_perm ok.lawful hperm hd (k, m.dv)
    rw [ofAge_cons] at hfp
    by_cases ha : e.age = a
    · rw [if_pos ha, List.find?_cons] at hfp
      have h3 : m.cfg.eq (k, m.dv) (pairOf e) = true := hk
      rw [h3] at hfp
      rw [mget_some hfp]
      simp [ha]
    · rw [if_neg ha, find_ofAge_none hq] at hfp
      rw [mget_none hfp]
      have : (some e.age == some a) = false := by simp [ha]
      simp [ha]

theorem ofAge_filter (k : K) (a : Nat) (l : List (AgedEntry K V)) :
    ofAge a (l.filter (fun e => !m.ke k e.key)) = (ofAge a l).filter (fun p => !m.cfg.eq (k, m.dv) p) := by
  unfold ofAge
  rw [List.filter_map, List.filter_filter, List.filter_filter]
  congr 1
  apply List.filter_congr
  intro x _
  rw [Bool.and_comm]; rfl

theorem rot_step (ok : MapOk m) (h : RotR m r s n) (hf : Fits m.cfg n) (op : ROp K V) :
    RotOver n s op ∨ (RotAborts m.ke s op ∧ rStep m r op = .abort) ∨
    ∃ r' o s', rStep m r op = .ok (r', o) ∧ RotStep m.ke m.dv s op o s' ∧ RotR m r' s' n := by
  have law := ok.lawful
  have hrot : RotR m (rRotate r) (arotate s) n := by
    obtain ⟨u1, h1⟩ := h.recent
    have hz : ofAge 0 (arotate s) = [] := by
      unfold ofAge arotate
      rw [List.filter_eq_nil_iff.2, List.map_nil]
      intro e he
      obtain ⟨x, _, rfl⟩ := List.mem_map.1 he
      simp
    have ho : ofAge 1 (arotate s) = ofAge 0 s := by
      unfold ofAge arotate
      rw [List.filter_eq_self.2, List.map_map]
      · rfl
      · intro e he
        obtain ⟨x, _, rfl⟩ := List.mem_map.1 he
        simp
    refine ⟨⟨false, ?_⟩, ⟨u1, by rw [ho]; exact h1⟩, ?_, ?_⟩
    · rw [hz]; exact (ur_empty m.cfg).mono (Nat.zero_le _)
    · unfold arotate
      rw [List.pairwise_map]
      exact h.dist.filter _
    · intro e he
      obtain ⟨x, _, rfl⟩ := List.mem_map.1 he
      right; rfl
  have hflush : RotR m (rRotate (rRotate r)) [] n := by
    refine ⟨⟨false, ?_⟩, ⟨false, ?_⟩, List.Pairwise.nil, fun e he => by cases he⟩
    · exact (ur_empty m.cfg).mono (Nat.zero_le _)
    · exact (ur_empty m.cfg).mono (Nat.zero_le _)
  obtain ⟨u1, h1⟩ := h.recent
  obtain ⟨u2, h2⟩ := h.old
  cases op with
  | set k v =>
    rcases Nat.lt_or_ge s.length n with hlt | hge
    · right; right
      rcases rot_lookup ok h hf hlt k with ⟨hg, e⟩ | ⟨e, r', loc, hg, e1, hr', x, e2, hx, e3⟩
      · obtain ⟨t', loc, f1, f2, f3, f4⟩ := rot_index_absent ok h hf hlt k hg
        obtain ⟨t'', g1, g2⟩ := f4 v
        exact ⟨_, .unit, ⟨k, v, 0⟩ :: s, by simp only [rStep, rIndex, e, f1, f3, g1, Res.bind_ok, Res.pure_eq],
          ⟨rfl, by rw [aput, hg]; rfl⟩, g2⟩
      · obtain ⟨t'', g1, g2⟩ := e3 v
        exact ⟨_, .unit, _, by simp only [rStep, rIndex, e1, e2, g1, Res.bind_ok, Res.pure_eq], ⟨rfl, by rw [aput, hg]; rfl⟩, g2⟩
    · exact .inl hge
  | index k =>
    rcases Nat.lt_or_ge s.length n with hlt | hge
    · right; right
      rcases rot_lookup ok h hf hlt k with ⟨hg, e⟩ | ⟨e, r', loc, hg, e1, hr', x, e2, hx, e3⟩
      · obtain ⟨t', loc, f1, f2, f3, f4⟩ := rot_index_absent ok h hf hlt k hg
        exact ⟨_, .val m.dv, ⟨k, m.dv, 0⟩ :: s, by simp only [rStep, rIndex, e, f1, f3, Res.bind_ok, Res.pure_eq],
          ⟨by rw [hg]; rfl, by rw [hg]; rfl⟩, f2⟩
      · refine ⟨r', .val x.2, touch m.ke s k, by simp only [rStep, rIndex, e1, e2, Res.bind_ok, Res.pure_eq],
          ⟨?_, by rw [hg]; rfl⟩, hr'⟩
        rw [hg, hx]
        simp only [pairOf, refresh]
        split <;> rfl
    · exact .inl hge
  | lookup k =>
    rcases Nat.lt_or_ge s.length n with hlt | hge
    · right; right
      rcases rot_lookup ok h hf hlt k with ⟨hg, e⟩ | ⟨e, r', loc, hg, e1, hr', x, e2, hx, e3⟩
      · exact ⟨r, .opt none, touch m.ke s k, by simp only [rStep, e, Res.bind_ok, Res.pure_eq], ⟨by rw [hg]; rfl, rfl⟩,
          by rw [touch_absent (aget_none hg)]; exact h⟩
      · refine ⟨r', .opt (some x.2), touch m.ke s k, by simp only [rStep, e1, e2, Res.bind_ok, Res.pure_eq], ⟨?_, rfl⟩, hr'⟩
        rw [hg, hx]
        simp only [pairOf, refresh]
        split <;> rfl
    · exact .inl hge
  | exists' k =>
    rcases Nat.lt_or_ge s.length n with hlt | hge
    · right; right
      rcases rot_lookup ok h hf hlt k with ⟨hg, e⟩ | ⟨e, r', loc, hg, e1, hr', _⟩
      · exact ⟨r, .bool false, touch m.ke s k, by simp [rStep, e], ⟨by rw [hg]; rfl, rfl⟩,
          by rw [touch_absent (aget_none hg)]; exact h⟩
      · exact ⟨r', .bool true, touch m.ke s k, by simp [rStep, e1], ⟨by rw [hg]; rfl, rfl⟩, hr'⟩
    · exact .inl hge
  | existsNoPromote k =>
    right; right
    refine ⟨r, .bool (aget m.ke s k).isSome, s, ?_, ⟨rfl, rfl⟩, h⟩
    simp only [rStep, rExistsNoPromote, mexists_ok ok h1, mexists_ok ok h2, mget_ofAge ok h, Res.bind_ok, Res.pure_eq]
    cases hg : aget m.ke s k with
    | none => simp
    | some e =>
      rcases h.age e (List.mem_of_find?_eq_some hg) with ha | ha <;> simp [ha]
  | existsRecent k =>
    exact .inr (.inr ⟨r, .bool (((aget m.ke s k).map (·.age)) == some 0), s,
      by simp only [rStep, mexists_ok ok h1, mget_ofAge ok h, Res.bind_ok, Res.pure_eq], ⟨rfl, rfl⟩, h⟩)
  | existsOld k =>
    exact .inr (.inr ⟨r, .bool (((aget m.ke s k).map (·.age)) == some 1), s,
      by simp only [rStep, mexists_ok ok h2, mget_ofAge ok h, Res.bind_ok, Res.pure_eq], ⟨rfl, rfl⟩, h⟩)
  | remove k must =>
    right
    obtain ⟨a, ta, ea, ha⟩ : ∃ (a : Bool) (ta : Table (K × V)), mRemove m r.recent k false = .ok (ta, a) ∧
        a = (mget m.ke (ofAge 0 s) k).isSome ∧ UR m.cfg ta ((ofAge 0 s).filter fun p => !m.cfg.eq (k, m.dv) p) u1 n := by
      rcases ur_remove law h1 (k, m.dv) false with ⟨hno, e⟩ | ⟨hs, t', e, h'⟩
      · refine ⟨false, r.recent, by simpa [mRemove] using e, by rw [mget_none hno]; rfl, ?_⟩
        have := filter_absent hno
        unfold mdel at this
        have h3 : (ofAge 0 s).filter (fun p => !m.cfg.eq (k, m.dv) p) = ofAge 0 s := this
        rw [h3]; exact h1
      · obtain ⟨x, hx⟩ := Option.isSome_iff_exists.1 hs
        exact ⟨true, t', e, by rw [mget_some hx]; rfl, h'⟩
    obtain ⟨b, tb, eb, hb⟩ : ∃ (b : Bool) (tb : Table (K × V)), mRemove m r.old k false = .ok (tb, b) ∧
        b = (mget m.ke (ofAge 1 s) k).isSome ∧ UR m.cfg tb ((ofAge 1 s).filter fun p => !m.cfg.eq (k, m.dv) p) u2 n := by
      rcases ur_remove law h2 (k, m.dv) false with ⟨hno, e⟩ | ⟨hs, t', e, h'⟩
      · refine ⟨false, r.old, by simpa [mRemove] using e, by rw [mget_none hno]; rfl, ?_⟩
        have := filter_absent hno
        unfold mdel at this
        have h3 : (ofAge 1 s).filter (fun p => !m.cfg.eq (k, m.dv) p) = ofAge 1 s := this
        rw [h3]; exact h2
      · obtain ⟨x, hx⟩ := Option.isSome_iff_exists.1 hs
        exact ⟨true, t', e, by rw [mget_some hx]; rfl, h'⟩
    have hab : (a || b) = (aget m.ke s k).isSome := by
      rw [ha.1, hb.1, mget_ofAge ok h, mget_ofAge ok h]
      cases hg : aget m.ke s k with
      | none => simp
      | some e =>
        rcases h.age e (List.mem_of_find?_eq_some hg) with h3 | h3 <;> simp [h3]
    have hreq : (!must || a || b) = (!must || (aget m.ke s k).isSome) := by rw [Bool.or_assoc, hab]
    by_cases hc : (!must || (aget m.ke s k).isSome) = true
    · right
      refine ⟨⟨ta, tb⟩, .bool (aget m.ke s k).isSome, _, ?_, ⟨?_, rfl, rfl⟩, ?_⟩
      · simp only [rStep, rRemove, ea, eb, Res.bind_ok, hreq, hc, Res.require_true, Res.pure_eq, hab]
      · cases must with
        | false => right; rfl
        | true => left; simpa using hc
      · exact ⟨⟨u1, by rw [ofAge_filter]; exact ha.2⟩, ⟨u2, by rw [ofAge_filter]; exact hb.2⟩, h.dist.filter _,
          fun e he => h.age e (List.mem_filter.1 he).1⟩
    · left
      have hc' : (!must || (aget m.ke s k).isSome) = false := by simpa using hc
      refine ⟨?_, by simp only [rStep, rRemove, ea, eb, Res.bind_ok, hreq, hc', Res.require_false, Res.bind_abort]⟩
      rw [Bool.or_eq_false_iff] at hc'
      exact ⟨by simpa using hc'.1, by simpa using hc'.2⟩
  | rotate => exact .inr (.inr ⟨rRotate r, .unit, arotate s, rfl, ⟨rfl, rfl⟩, hrot⟩)
  | rotateFn =>
    obtain ⟨l, e, hl⟩ := ur_walk h2
    exact .inr (.inr ⟨rRotate r, .list l, arotate s, by simp [rStep, rRotateFn, e], ⟨rfl, l, rfl, hl⟩, hrot⟩)
  | flushRotate => exact .inr (.inr ⟨_, .unit, [], rfl, ⟨rfl, rfl⟩, hflush⟩)
  | flushRotateFn =>
    obtain ⟨l1, e1, hl1⟩ := ur_walk h1
    obtain ⟨l2, e2, hl2⟩ := ur_walk h2
    have e3 : walk (rRotate r).old = .ok l1 := e1
    exact .inr (.inr ⟨_, .list (l2 ++ l1), [], by simp only [rStep, rRotateFn, e2, e3, Res.bind_ok, Res.pure_eq],
      ⟨rfl, _, rfl, (hl2.append hl1).trans (List.perm_append_comm.trans (ofAge_split h.age))⟩, hflush⟩)
  | walk =>
    obtain ⟨l1, e1, hl1⟩ := ur_walk h1
    obtain ⟨l2, e2, hl2⟩ := ur_walk h2
    exact .inr (.inr ⟨r, .list (l1 ++ l2), s, by simp [rStep, rWalk, e1, e2],
      ⟨rfl, _, rfl, (hl1.append hl2).trans (ofAge_split h.age)⟩, h⟩)
  | size =>
    refine .inr (.inr ⟨r, _, s, rfl, ⟨?_, rfl⟩, h⟩)
    rw [ur_size h1, ur_size h2, ← List.length_append, (ofAge_split h.age).length_eq, List.length_map]
  | sizeRecent => exact .inr (.inr ⟨r, _, s, rfl, ⟨by rw [ur_size h1, ofAge_length], rfl⟩, h⟩)
  | sizeOld => exact .inr (.inr ⟨r, _, s, rfl, ⟨by rw [ur_size h2, ofAge_length], rfl⟩, h⟩)

theorem rot_run (ok : MapOk m) (hf : Fits m.cfg n) : ∀ (ops : List (ROp K V)) (r : Rot K V) (s : List (AgedEntry K V)),
    RotR m r s n → RotRun n m.ke m.dv s ops (rRun m r ops) := by
  intro ops
  induction ops with
  | nil => intro t s _; rfl
  | cons op ops ih =>
    intro t s h
    rcases rot_step ok h hf op with h1 | ⟨h1, e⟩ | ⟨t', o, s', e, h1, h2⟩
    · exact .inl h1
    · exact .inr (.inl ⟨h1, by simp [rRun, e]⟩)
    · refine .inr (.inr ⟨o, s', rRun m t' ops, h1, ih t' s' h2, ?_⟩)
      simp only [rRun, e, Res.bind_ok, Res.pure_eq]
      cases rRun m t' ops <;> simp

theorem rot_new (m : MapCfg K V) (n : Nat) : RotR m rNew [] n :=
  ⟨⟨false, (ur_empty m.cfg).mono (Nat.zero_le _)⟩, ⟨false, (ur_empty m.cfg).mono (Nat.zero_le _)⟩, List.Pairwise.nil,
    fun e he => by cases he⟩

end
end Verif.Hash
