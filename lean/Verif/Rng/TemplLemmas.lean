import Verif.Rng.Bits

namespace Verif.Rng

open Spec (Exactly CMWC)

/-! ## `randIntUnbiased` -/

theorem accept_eq {u max : W} (hm : max ≠ 0) (hle : max.toNat ≤ u.toNat) (res : W) :
    accept u max res = .ok (if res.toNat < u.toNat / max.toNat * max.toNat then some (res % max) else none) := by
  have hpos : 0 < max.toNat := by
    apply Nat.pos_of_ne_zero
    intro h
    exact hm (BitVec.eq_of_toNat_eq h)
  have hsub : (u - max).toNat = u.toNat - max.toNat := BitVec.toNat_sub_of_le (by rw [BitVec.le_def]; exact hle)
  have hdm : u.toNat / max.toNat * max.toNat ≤ u.toNat := Nat.div_mul_le_self _ _
  have hmul : (u / max * max).toNat = u.toNat / max.toNat * max.toNat := by
    rw [BitVec.toNat_mul, BitVec.toNat_udiv, Nat.mod_eq_of_lt (by have := u.isLt; omega)]
  have hmod := Nat.mod_lt u.toNat hpos
  have hsum := Nat.div_add_mod u.toNat max.toNat
  rw [Nat.mul_comm] at hsum
  unfold accept
  rw [if_neg hm]
  have e1 : (u - max > res) ↔ res.toNat < u.toNat - max.toNat := by rw [gt_iff_lt, BitVec.lt_def, hsub]
  have e2 : (u / max * max > res) ↔ res.toNat < u.toNat / max.toNat * max.toNat := by rw [gt_iff_lt, BitVec.lt_def, hmul]
  by_cases h1 : res.toNat < u.toNat - max.toNat
  · rw [if_pos (e1.2 h1), if_pos (by omega)]
  · rw [if_neg (fun h => h1 (e1.1 h))]
    by_cases h2 : res.toNat < u.toNat / max.toNat * max.toNat
    · rw [if_pos (e2.2 h2), if_pos h2]
    · rw [if_neg (fun h => h2 (e2.1 h)), if_neg h2]

theorem accept_count {u max : W} (hm : max ≠ 0) (hle : max.toNat ≤ u.toNat) {r : W} (hr : r < max) :
    Exactly (u.toNat / max.toNat) (fun res => accept u max res = .ok (some r)) := by
  have hpos : 0 < max.toNat := by
    apply Nat.pos_of_ne_zero
    intro h
    exact hm (BitVec.eq_of_toNat_eq h)
  rw [BitVec.lt_def] at hr
  have hdm : u.toNat / max.toNat * max.toNat ≤ u.toNat := Nat.div_mul_le_self _ _
  have hlt : ∀ q, q < u.toNat / max.toNat → q * max.toNat + r.toNat < u.toNat / max.toNat * max.toNat := by
    intro q hq
    have : (q + 1) * max.toNat ≤ u.toNat / max.toNat * max.toNat := Nat.mul_le_mul_right _ hq
    rw [Nat.add_mul] at this
    omega
  have hnat : ∀ q : Fin (u.toNat / max.toNat),
      (BitVec.ofNat 32 (q.val * max.toNat + r.toNat)).toNat = q.val * max.toNat + r.toNat := by
    intro q
    rw [BitVec.toNat_ofNat, Nat.mod_eq_of_lt]
    have := hlt q.val q.isLt
    have := u.isLt
    omega
  refine ⟨fun q => BitVec.ofNat 32 (q.val * max.toNat + r.toNat), ?_, ?_⟩
  · intro q q' h
    have h := congrArg BitVec.toNat h
    rw [hnat, hnat] at h
    exact Fin.ext (Nat.eq_of_mul_eq_mul_right hpos (by omega))
  · intro x
    dsimp only
    rw [accept_eq hm hle]
    constructor
    · intro h
      by_cases hx : x.toNat < u.toNat / max.toNat * max.toNat
      · rw [if_pos hx] at h
        have hxr : x % max = r := Option.some.inj (Res.ok.inj h)
        have hxr := congrArg BitVec.toNat hxr
        rw [BitVec.toNat_umod] at hxr
        refine ⟨⟨x.toNat / max.toNat, (Nat.div_lt_iff_lt_mul hpos).2 hx⟩, ?_⟩
        apply BitVec.eq_of_toNat_eq
        rw [hnat]
        dsimp only
        rw [← hxr, Nat.mul_comm]
        exact Nat.div_add_mod _ _
      · rw [if_neg hx] at h
        simp at h
    · rintro ⟨q, rfl⟩
      have hq := hlt q.val q.isLt
      rw [if_pos (by rw [hnat]; exact hq)]
      congr 2
      apply BitVec.eq_of_toNat_eq
      rw [BitVec.toNat_umod, hnat, Nat.add_comm, Nat.add_mul_mod_self_right, Nat.mod_eq_of_lt hr]

theorem unbiased_lt {S : Type} (next : S → Res (S × W)) {u max : W} (hm : max ≠ 0) (hle : max.toNat ≤ u.toNat) :
    ∀ (fuel : Nat) (t t' : Templ S) (r : W), t.intUnbiased next u max fuel = .ok (t', some r) → r < max
  | 0, t, t', r, h => by simp [Templ.intUnbiased] at h
  | fuel + 1, t, t', r, h => by
    unfold Templ.intUnbiased at h
    obtain ⟨⟨t1, x⟩, e1, h⟩ := Res.bind_eq_ok.1 h
    dsimp only at h
    rw [accept_eq hm hle, Res.bind_ok] at h
    by_cases hx : x.toNat < u.toNat / max.toNat * max.toNat
    · rw [if_pos hx] at h
      simp only [Res.pure_eq, Res.ok.injEq, Prod.mk.injEq, Option.some.injEq] at h
      rw [← h.2]
      exact BitVec.umod_lt _ (by
        rw [BitVec.lt_def]
        apply Nat.pos_of_ne_zero
        intro h0
        exact hm (BitVec.eq_of_toNat_eq h0))
    · rw [if_neg hx] at h
      exact unbiased_lt next hm hle fuel t1 t' r h

/-! ## Re-seeding -/

variable {S : Type} (next : S → Res (S × W))

/-- The saved bits of `randBoolFast` cannot be told apart. -/
def Same (t1 t2 : Templ S) : Prop :=
  t1.inner = t2.inner ∧ ((t1.boolShift = 0 ∧ t2.boolShift = 0) ∨ t1 = t2)

/-- The same outcome up to `R`. -/
inductive ResRel {α β : Type} (R : α → β → Prop) : Res α → Res β → Prop where
  | ok {a b} : R a b → ResRel R (.ok a) (.ok b)
  | abort : ResRel R .abort .abort
  | ub : ResRel R .ub .ub

theorem ResRel.bind {α β γ δ : Type} {R : α → β → Prop} {Q : γ → δ → Prop} {x : Res α} {y : Res β} {f : α → Res γ}
    {g : β → Res δ} (h : ResRel R x y) (hf : ∀ a b, R a b → ResRel Q (f a) (g b)) : ResRel Q (x >>= f) (y >>= g) := by
  cases h with
  | ok h => exact hf _ _ h
  | abort => exact .abort
  | ub => exact .ub

/-- Equal inner states; whatever the saved bits are, they are untouched. -/
def Keep (a b : Templ S) (t1 t2 : Templ S) : Prop :=
  t1.inner = t2.inner ∧ t1.boolShift = a.boolShift ∧ t1.boolState = a.boolState ∧ t2.boolShift = b.boolShift ∧
    t2.boolState = b.boolState

def KeepOut {γ : Type} (a b : Templ S) (p q : Templ S × γ) : Prop := Keep a b p.1 q.1 ∧ p.2 = q.2

theorem int_keep {a b t1 t2 : Templ S} (h : Keep a b t1 t2) : ResRel (KeepOut a b) (t1.int next) (t2.int next) := by
  unfold Templ.int
  rw [h.1]
  cases next t2.inner with
  | ok p => exact .ok ⟨⟨rfl, h.2⟩, rfl⟩
  | abort => exact .abort
  | ub => exact .ub

theorem longLong_keep {a b t1 t2 : Templ S} (h : Keep a b t1 t2) :
    ResRel (KeepOut a b) (t1.longLong next) (t2.longLong next) := by
  unfold Templ.longLong
  refine (int_keep next h).bind ?_
  rintro ⟨s1, x1⟩ ⟨s2, x2⟩ ⟨h1, rfl⟩
  dsimp only
  refine (int_keep next h1).bind ?_
  rintro ⟨s1, y1⟩ ⟨s2, y2⟩ ⟨h2, rfl⟩
  exact .ok ⟨h2, rfl⟩

theorem unbiased_keep {a b : Templ S} (u max : W) : ∀ (fuel : Nat) (t1 t2 : Templ S), Keep a b t1 t2 →
    ResRel (KeepOut a b) (t1.intUnbiased next u max fuel) (t2.intUnbiased next u max fuel)
  | 0, _, _, h => .ok ⟨h, rfl⟩
  | fuel + 1, _, _, h => by
    unfold Templ.intUnbiased
    refine (int_keep next h).bind ?_
    rintro ⟨s1, x1⟩ ⟨s2, x2⟩ ⟨h1, rfl⟩
    dsimp only
    cases accept u max x1 with
    | abort => exact .abort
    | ub => exact .ub
    | ok o =>
      cases o with
      | none => exact unbiased_keep u max fuel s1 s2 h1
      | some r => exact .ok ⟨h1, rfl⟩

theorem call_keep {a b : Templ S} (u : W) (fuel : Nat) {t1 t2 : Templ S} (h : Keep a b t1 t2) (c : Call)
    (hc : c ≠ .boolFast) : ResRel (KeepOut a b) (t1.call next u fuel c) (t2.call next u fuel c) := by
  cases c with
  | int =>
    refine (int_keep next h).bind ?_
    rintro ⟨s1, x1⟩ ⟨s2, x2⟩ ⟨h1, rfl⟩
    exact .ok ⟨h1, rfl⟩
  | intMax m =>
    refine ResRel.bind (R := KeepOut a b) ?_ ?_
    · unfold Templ.intMax
      refine (int_keep next h).bind ?_
      rintro ⟨s1, x1⟩ ⟨s2, x2⟩ ⟨h1, rfl⟩
      dsimp only
      by_cases hm : m = 0
      · rw [if_pos hm, if_pos hm]; exact .ub
      · rw [if_neg hm, if_neg hm]; exact .ok ⟨h1, rfl⟩
    · rintro ⟨s1, x1⟩ ⟨s2, x2⟩ ⟨h1, rfl⟩
      exact .ok ⟨h1, rfl⟩
  | intUnbiased m =>
    refine (unbiased_keep next u m fuel _ _ h).bind ?_
    rintro ⟨s1, x1⟩ ⟨s2, x2⟩ ⟨h1, rfl⟩
    cases x1 <;> exact .ok ⟨h1, rfl⟩
  | longLong =>
    refine (longLong_keep next h).bind ?_
    rintro ⟨s1, x1⟩ ⟨s2, x2⟩ ⟨h1, rfl⟩
    exact .ok ⟨h1, rfl⟩
  | pair =>
    refine ResRel.bind (R := KeepOut a b) ?_ ?_
    · unfold Templ.pair
      refine (int_keep next h).bind ?_
      rintro ⟨s1, x1⟩ ⟨s2, x2⟩ ⟨h1, rfl⟩
      dsimp only
      refine (int_keep next h1).bind ?_
      rintro ⟨s1, y1⟩ ⟨s2, y2⟩ ⟨h2, rfl⟩
      exact .ok ⟨h2, rfl⟩
    · rintro ⟨s1, x1, y1⟩ ⟨s2, x2, y2⟩ ⟨h1, h2⟩
      cases h2
      exact .ok ⟨h1, rfl⟩
  | bool =>
    refine ResRel.bind (R := KeepOut a b) ?_ ?_
    · unfold Templ.bool
      refine (int_keep next h).bind ?_
      rintro ⟨s1, x1⟩ ⟨s2, x2⟩ ⟨h1, rfl⟩
      exact .ok ⟨h1, rfl⟩
    · rintro ⟨s1, x1⟩ ⟨s2, x2⟩ ⟨h1, rfl⟩
      exact .ok ⟨h1, rfl⟩
  | boolFast => exact absurd rfl hc

theorem calls_keep {a b : Templ S} (u : W) (fuel : Nat) : ∀ (cs : List Call) (t1 t2 : Templ S), Keep a b t1 t2 →
    (∀ c ∈ cs, c ≠ .boolFast) → ResRel (KeepOut a b) (Templ.calls next u fuel cs t1) (Templ.calls next u fuel cs t2)
  | [], _, _, h, _ => .ok ⟨h, rfl⟩
  | c :: cs, t1, t2, h, hc => by
    unfold Templ.calls
    refine (call_keep next u fuel h c (hc c (by simp))).bind ?_
    rintro ⟨s1, x1⟩ ⟨s2, x2⟩ ⟨h1, rfl⟩
    dsimp only
    refine (calls_keep u fuel cs s1 s2 h1 (fun c h => hc c (by simp [h]))).bind ?_
    rintro ⟨s1, y1⟩ ⟨s2, y2⟩ ⟨h2, rfl⟩
    exact .ok ⟨h2, rfl⟩

theorem keep_refl {t1 t2 : Templ S} (h : t1.inner = t2.inner) : Keep t1 t2 t1 t2 := ⟨h, rfl, rfl, rfl, rfl⟩

theorem same_of_keep {a b t1 t2 : Templ S} (h : Same a b) (k : Keep a b t1 t2) : Same t1 t2 := by
  refine ⟨k.1, ?_⟩
  obtain ⟨_, (⟨h1, h2⟩ | rfl)⟩ := h
  · exact Or.inl ⟨by rw [k.2.1, h1], by rw [k.2.2.2.1, h2]⟩
  · right
    cases t1; cases t2
    obtain ⟨k1, k2, k3, k4, k5⟩ := k
    simp only at k1 k2 k3 k4 k5
    subst k1; subst k2; subst k3; subst k4; subst k5; rfl

def SameOut {γ : Type} (p q : Templ S × γ) : Prop := Same p.1 q.1 ∧ p.2 = q.2

theorem call_same (u : W) (fuel : Nat) {t1 t2 : Templ S} (h : Same t1 t2) (c : Call) :
    ResRel SameOut (t1.call next u fuel c) (t2.call next u fuel c) := by
  by_cases hc : c = .boolFast
  · subst hc
    refine ResRel.bind (R := SameOut) ?_ ?_
    · unfold Templ.boolFast
      refine ResRel.bind (R := Eq) ?_ ?_
      · rcases h.2 with ⟨h1, h2⟩ | rfl
        · unfold Templ.refill
          rw [if_pos h1, if_pos h2]
          refine (longLong_keep next (keep_refl h.1)).bind ?_
          rintro ⟨s1, x1⟩ ⟨s2, x2⟩ ⟨k, hx⟩
          dsimp only at hx k ⊢
          subst hx
          refine .ok ?_
          cases s1; cases s2
          have k1 := k.1
          simp only at k1
          subst k1; rfl
        · cases t1.refill next with
          | ok a => exact .ok rfl
          | abort => exact .abort
          | ub => exact .ub
      · rintro a b rfl
        exact .ok ⟨⟨rfl, Or.inr rfl⟩, rfl⟩
    · rintro ⟨s1, x1⟩ ⟨s2, x2⟩ ⟨h1, rfl⟩
      exact .ok ⟨h1, rfl⟩
  · have := call_keep next u fuel (keep_refl h.1) c hc
    revert this
    generalize t1.call next u fuel c = x
    generalize t2.call next u fuel c = y
    intro hr
    cases hr with
    | ok k => exact .ok ⟨same_of_keep h k.1, k.2⟩
    | abort => exact .abort
    | ub => exact .ub

theorem calls_same (u : W) (fuel : Nat) : ∀ (cs : List Call) (t1 t2 : Templ S), Same t1 t2 →
    ResRel SameOut (Templ.calls next u fuel cs t1) (Templ.calls next u fuel cs t2)
  | [], _, _, h => .ok ⟨h, rfl⟩
  | c :: cs, t1, t2, h => by
    unfold Templ.calls
    refine (call_same next u fuel h c).bind ?_
    rintro ⟨s1, x1⟩ ⟨s2, x2⟩ ⟨h1, rfl⟩
    dsimp only
    refine (calls_same u fuel cs s1 s2 h1).bind ?_
    rintro ⟨s1, y1⟩ ⟨s2, y2⟩ ⟨h2, rfl⟩
    exact .ok ⟨h2, rfl⟩

/-- What the caller sees of a run. -/
def outs {γ : Type} (r : Res (Templ S × γ)) : Res γ := r.map (·.2)

theorem outs_eq {γ : Type} {R : Templ S → Templ S → Prop} {x y : Res (Templ S × γ)}
    (h : ResRel (fun p q => R p.1 q.1 ∧ p.2 = q.2) x y) : outs x = outs y := by
  cases h with
  | ok h => simp [outs, h.2]
  | abort => rfl
  | ub => rfl

end Verif.Rng
