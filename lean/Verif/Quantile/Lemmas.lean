import Verif.Quantile.Spec
import Verif.PQ.Lemmas2
import Mathlib.Tactic.Ring
import Mathlib.Tactic.Linarith
import Mathlib.Algebra.BigOperators.Group.List.Basic

/-! # The merge loop of `collapse` -/

namespace Verif.Quantile

open Verif

variable {V : Type} [LinearOrder V]

theorem pair_importance : PQ.Importance (pairCmp : V × Nat → V × Nat → Bool) (fun a b => b.1 ≤ a.1) :=
  ⟨fun a b => (le_total b.1 a.1).imp id id, fun _ _ _ h h' => le_trans h' h, fun _ _ h => by simpa [pairCmp] using h,
    fun a b h => by simp [pairCmp] at h; exact le_of_lt h⟩

theorem rk_append (p : V → Bool) (a b : List (V × Nat)) : rk p (a ++ b) = rk p a + rk p b := by simp [rk]

theorem rk_single (p : V → Bool) (v : V) (w : Nat) : rk p [(v, w)] = if p v then w else 0 := by simp [rk]

theorem rk_all_le (p : V → Bool) : ∀ l : List (V × Nat), (∀ x ∈ l, p x.1 = true) → rk p l = (l.map (·.2)).sum
  | [], _ => rfl
  | x :: xs, h => by
    have := rk_all_le p xs (fun y hy => h y (List.mem_cons_of_mem _ hy))
    simp only [rk, List.map_cons, List.sum_cons] at this ⊢
    rw [this, if_pos (h x (List.mem_cons_self ..))]

theorem rk_le_sum (p : V → Bool) : ∀ l : List (V × Nat), rk p l ≤ (l.map (·.2)).sum
  | [] => Nat.le_refl _
  | x :: xs => by
    have := rk_le_sum p xs
    simp only [rk, List.map_cons, List.sum_cons] at this ⊢
    split <;> omega

theorem down_true : Down (fun _ : V => true) := fun _ _ _ _ => rfl

/-- The buffers `f` to `n - 1` are full and sorted. -/
def Full (slots : List (Slot V)) (k f n : Nat) (vals : Nat → List V) (wt : Nat → Nat) : Prop :=
  ∀ i, f ≤ i → i < n → ∃ x, slots[i]? = some x ∧ x.buf = some ((vals i).map some) ∧ (vals i).length = k ∧
    (vals i).Pairwise (· ≤ ·) ∧ x.weight = wt i ∧ 0 < wt i

/-- What is left of a buffer: its number, the next value and the rest. -/
abbrev Rem (V : Type) := Nat × V × List V

def restRk (wt : Nat → Nat) (p : V → Bool) (rem : List (Rem V)) : Nat := (rem.map fun r => wt r.1 * (r.2.1 :: r.2.2).countP p).sum

def restLen (rem : List (Rem V)) : Nat := (rem.map fun r => r.2.2.length + 1).sum

/-- The remainders are those given by the positions. -/
structure RI (k f n : Nat) (vals : Nat → List V) (cp : List Nat) (rem : List (Rem V)) : Prop where
  range : ∀ r ∈ rem, f ≤ r.1 ∧ r.1 < n
  pos : ∀ r ∈ rem, ∃ m, cp[r.1]? = some m ∧ (vals r.1).drop m = r.2.1 :: r.2.2
  nodup : (rem.map (·.1)).Nodup

theorem restRk_perm (wt : Nat → Nat) (p : V → Bool) {a b : List (Rem V)} (h : a.Perm b) : restRk wt p a = restRk wt p b := (h.map _).sum_eq
theorem restLen_perm {a b : List (Rem V)} (h : a.Perm b) : restLen a = restLen b := (h.map _).sum_eq

theorem RI.perm {k f n : Nat} {vals : Nat → List V} {cp : List Nat} {a b : List (Rem V)} (h : RI k f n vals cp a) (hp : a.Perm b) : RI k f n vals cp b :=
  ⟨fun r hr => h.range r (hp.mem_iff.2 hr), fun r hr => h.pos r (hp.mem_iff.2 hr), (hp.map _).nodup_iff.1 h.nodup⟩

/-- A permutation of a mapped list is the map of a permutation. -/
theorem perm_map_cons {β γ : Type} (f : β → γ) {l : List β} {y : γ} {ys : List γ} (h : (l.map f).Perm (y :: ys)) :
    ∃ x xs, l.Perm (x :: xs) ∧ f x = y ∧ (xs.map f).Perm ys := by
  have hy : y ∈ l.map f := h.mem_iff.2 (List.mem_cons_self ..)
  obtain ⟨x, hx, rfl⟩ := List.mem_map.1 hy
  obtain ⟨s, t, rfl⟩ := List.append_of_mem hx
  refine ⟨x, s ++ t, List.perm_middle, rfl, ?_⟩
  have : ((s ++ x :: t).map f).Perm (f x :: (s ++ t).map f) := by
    rw [List.map_append, List.map_cons, List.map_append]
    exact List.perm_middle
  exact (List.perm_cons _).1 (this.symm.trans h)

theorem cell_ok {slots : List (Slot V)} {k f n : Nat} {vals : Nat → List V} {wt : Nat → Nat} (hF : Full slots k f n vals wt) {i j : Nat} (hi : f ≤ i)
    (hin : i < n) {v : V} (h : (vals i)[j]? = some v) : cell slots i j = .ok v := by
  obtain ⟨x, hx, hb, _⟩ := hF i hi hin
  simp [cell, PQ.rd, hx, hb, nonNull, h]

/-- What has been taken from the queue so far (`seq`) and what was put out (`out`). -/
structure Taken (W off : Nat) (seq : List (V × Nat)) (out : List V) : Prop where
  sorted : out.Pairwise (· ≤ ·)
  mem : ∀ x ∈ out, ∃ y ∈ seq, y.1 = x
  le : (seq.map (·.2)).sum ≤ off - 1 + out.length * W
  rank : ∀ p, Down p → rk p seq ≤ off - 1 + out.countP p * W ∧ (0 < out.countP p → off - 1 + (out.countP p - 1) * W < rk p seq)

theorem all_of_last {p : V → Bool} (hp : Down p) {seq : List (V × Nat)} {v : V} (hb : ∀ x ∈ seq, x.1 ≤ v) (hv : p v = true) : ∀ x ∈ seq, p x.1 = true :=
  fun x hx => hp _ _ (hb x hx) hv

theorem Taken.put {W off : Nat} {seq : List (V × Nat)} {out : List V} (h : Taken W off seq out) {v : V} {w : Nat} (hb : ∀ x ∈ seq, x.1 ≤ v) (hw : w ≤ W)
    (hgt : off - 1 + out.length * W < (seq.map (·.2)).sum + w) : Taken W off (seq ++ [(v, w)]) (out ++ [v]) := by
  refine ⟨?_, ?_, ?_, fun p hp => ?_⟩
  · rw [List.pairwise_append]
    refine ⟨h.sorted, by simp, fun a ha b hb' => ?_⟩
    rw [List.mem_singleton] at hb'
    subst hb'
    obtain ⟨y, hy, rfl⟩ := h.mem a ha
    exact hb y hy
  · intro x hx
    rcases List.mem_append.1 hx with hx | hx
    · obtain ⟨y, hy, e⟩ := h.mem x hx
      exact ⟨y, List.mem_append_left _ hy, e⟩
    · rw [List.mem_singleton] at hx
      exact ⟨(v, w), by simp, hx.symm⟩
  · simp only [List.map_append, List.sum_append, List.map_cons, List.map_nil, List.sum_cons, List.sum_nil, Nat.add_zero, List.length_append,
      List.length_singleton]
    have := h.le
    rw [Nat.add_mul]; omega
  · rw [rk_append, rk_single, List.countP_append]
    cases hv : p v with
    | true =>
      have ha := all_of_last hp hb hv
      have h1 : out.countP p = out.length := List.countP_eq_length.2 (fun x hx => by
        obtain ⟨y, hy, rfl⟩ := h.mem x hx; exact ha y hy)
      have h2 := rk_all_le p seq ha
      have h3 := h.le
      simp only [List.countP_cons, List.countP_nil, hv, if_true, Nat.zero_add, h1, h2]
      constructor
      · rw [Nat.add_mul]; omega
      · intro _
        have : out.length + 1 - 1 = out.length := by omega
        rw [this]; exact hgt
    | false =>
      obtain ⟨h1, h2⟩ := h.rank p hp
      simp only [List.countP_cons, List.countP_nil, hv, Bool.false_eq_true, if_false, Nat.add_zero]
      exact ⟨h1, h2⟩

theorem Taken.skip {W off : Nat} {seq : List (V × Nat)} {out : List V} (h : Taken W off seq out) {v : V} {w : Nat} (hb : ∀ x ∈ seq, x.1 ≤ v)
    (hle : (seq.map (·.2)).sum + w ≤ off - 1 + out.length * W) : Taken W off (seq ++ [(v, w)]) out := by
  refine ⟨h.sorted, ?_, ?_, fun p hp => ?_⟩
  · intro x hx
    obtain ⟨y, hy, e⟩ := h.mem x hx
    exact ⟨y, List.mem_append_left _ hy, e⟩
  · simpa using hle
  · obtain ⟨h1, h2⟩ := h.rank p hp
    rw [rk_append, rk_single]
    cases hv : p v with
    | true =>
      have ha := all_of_last hp hb hv
      have h3 : out.countP p = out.length := List.countP_eq_length.2 (fun x hx => by
        obtain ⟨y, hy, rfl⟩ := h.mem x hx; exact ha y hy)
      have h4 := rk_all_le p seq ha
      rw [h3] at h1 h2 ⊢
      rw [h4] at h2 ⊢
      refine ⟨by simpa using hle, fun h0 => ?_⟩
      have := h2 h0
      simp only [if_true]; omega
    | false =>
      simp only [Bool.false_eq_true, if_false, Nat.add_zero]
      exact ⟨h1, h2⟩

/-- The result of the loop, in terms of ranks. -/
structure Merged (k W off : Nat) (A : (V → Bool) → Nat) (out : List V) : Prop where
  length : out.length = k
  sorted : out.Pairwise (· ≤ ·)
  upper : ∀ p, Down p → W * out.countP p ≤ A p + (W - off)
  lower : ∀ p, Down p → A p ≤ W * out.countP p + (off - 1)

theorem Taken.done {k W off : Nat} {wt : Nat → Nat} {seq : List (V × Nat)} {out : List V} {rem : List (Rem V)} (h : Taken W off seq out) (A : (V → Bool) → Nat)
    (hA : ∀ p, A p = rk p seq + restRk wt p rem) (hk : out.length = k) (hbelow : ∀ x ∈ seq, ∀ r ∈ rem, x.1 ≤ r.2.1)
    (hsort : ∀ r ∈ rem, (r.2.1 :: r.2.2).Pairwise (· ≤ ·)) (htot : A (fun _ => true) = k * W) (hAle : ∀ p, A p ≤ A (fun _ => true))
    (h1 : 1 ≤ off) (hoff : off ≤ W) : Merged k W off A out := by
  have key : ∀ p, Down p → W * out.countP p ≤ A p + (W - off) ∧ A p ≤ W * out.countP p + (off - 1) := by
    intro p hp
    obtain ⟨g1, g2⟩ := h.rank p hp
    rw [Nat.mul_comm W]
    by_cases hr : ∃ r ∈ rem, ∃ x ∈ r.2.1 :: r.2.2, p x = true
    · obtain ⟨r, hr, x, hx, hpx⟩ := hr
      have hhead : r.2.1 ≤ x := by
        rcases List.mem_cons.1 hx with rfl | hx
        · exact le_refl _
        · exact (List.pairwise_cons.1 (hsort r hr)).1 x hx
      have hall : ∀ y ∈ seq, p y.1 = true := fun y hy => hp _ _ (le_trans (hbelow y hy r hr) hhead) hpx
      have hc : out.countP p = out.length := List.countP_eq_length.2 (fun x hx => by
        obtain ⟨y, hy, rfl⟩ := h.mem x hx; exact hall y hy)
      have hAp := hA p
      have := hAle p
      rw [hc, hk] at g1 g2 ⊢
      rw [htot] at this
      refine ⟨?_, by omega⟩
      rcases Nat.eq_zero_or_pos k with rfl | hkp
      · omega
      · have g := g2 hkp
        obtain ⟨k', rfl⟩ : ∃ k', k = k' + 1 := ⟨k - 1, by omega⟩
        rw [Nat.add_mul] at *
        simp only [Nat.add_sub_cancel] at g
        omega
    · have hz : restRk wt p rem = 0 := by
        unfold restRk
        rw [List.sum_eq_zero]
        intro x hx
        obtain ⟨r, hr', rfl⟩ := List.mem_map.1 hx
        have : (r.2.1 :: r.2.2).countP p = 0 := List.countP_eq_zero.2 (fun y hy hpy => hr ⟨r, hr', y, hy, hpy⟩)
        rw [this, Nat.mul_zero]
      have hAp : A p = rk p seq := by rw [hA p, hz, Nat.add_zero]
      rw [hAp]
      refine ⟨?_, by omega⟩
      rcases Nat.eq_zero_or_pos (out.countP p) with h0 | h0
      · rw [h0]; omega
      · have g := g2 h0
        obtain ⟨j, hj⟩ : ∃ j, out.countP p = j + 1 := ⟨out.countP p - 1, by omega⟩
        rw [hj] at g ⊢
        rw [Nat.add_mul]
        simp only [Nat.add_sub_cancel] at g
        omega
  exact ⟨hk, h.sorted, fun p hp => (key p hp).1, fun p hp => (key p hp).2⟩

theorem mergeLoop_ok (c : Consts V) {slots : List (Slot V)} {k f n W off : Nat} {vals : Nat → List V} {wt : Nat → Nat} (hF : Full slots k f n vals wt) (hnk : n ≤ k)
    (hwW : ∀ i, f ≤ i → i < n → wt i ≤ W) (h1 : 1 ≤ off) (hoff : off ≤ W) (A : (V → Bool) → Nat) (htot : A (fun _ => true) = k * W)
    (hAle : ∀ p, A p ≤ A (fun _ => true)) :
    ∀ (fuel : Nat) (rem : List (Rem V)) (q : PQ.Q (V × Nat)) (s : List (V × Nat)) (cp : List Nat) (seq : List (V × Nat)) (out : List V),
    PQ.QR (fun a b : V × Nat => b.1 ≤ a.1) (c.zero, 0) q s → s.Perm (rem.map fun r => (r.2.1, r.1)) → RI k f n vals cp rem → cp.length = k →
    restLen rem < fuel → Taken W off seq out → (∀ x ∈ seq, ∀ r ∈ rem, x.1 ≤ r.2.1) → (∀ p, A p = rk p seq + restRk wt p rem) → out.length ≤ k →
    (∀ y ∈ seq, ∃ i, f ≤ i ∧ i < n ∧ y.1 ∈ vals i) →
    ∃ out', mergeLoop slots k (W : Int) fuel q cp ((seq.map (·.2)).sum : Nat) ((off - 1 + out.length * W : Nat) : Int) out =
        .ok (out', ((off - 1 + k * W : Nat) : Int)) ∧ Merged k W off A out' ∧ ∀ x ∈ out', ∃ i, f ≤ i ∧ i < n ∧ x ∈ vals i
  | 0, rem, q, s, cp, seq, out, _, _, _, _, hfu, _, _, _, _, _ => absurd hfu (Nat.not_lt_zero _)
  | fuel + 1, rem, q, s, cp, seq, out, hq, hs, hR, hcp, hfu, hT, hbelow, hA, hout, hsv => by
    have hsort : ∀ r ∈ rem, (r.2.1 :: r.2.2).Pairwise (· ≤ ·) := by
      intro r hr
      obtain ⟨m, _, hd⟩ := hR.pos r hr
      obtain ⟨h1, h2⟩ := hR.range r hr
      obtain ⟨x, _, _, _, hsorted, _⟩ := hF r.1 h1 h2
      rw [← hd]
      exact hsorted.sublist (List.drop_sublist _ _)
    rw [mergeLoop]
    by_cases hlt : out.length < k
    · rw [if_pos hlt]
      have hlenq : s.length = q.size := hq.length
      have hne : rem ≠ [] := by
        rintro rfl
        have e := hA (fun _ => true)
        rw [rk_all_le _ _ (fun _ _ => rfl), htot] at e
        have := hT.le
        simp only [restRk, List.map_nil, List.sum_nil, Nat.add_zero] at e
        have : (out.length + 1) * W ≤ k * W := Nat.mul_le_mul_right _ hlt
        rw [Nat.add_mul] at this
        omega
      have hsz : q.size ≠ 0 := by
        rw [← hlenq, hs.length_eq, List.length_map]
        exact fun h => hne (List.length_eq_zero_iff.1 h)
      rw [if_neg hsz]
      have hpop := PQ.QR.pop_perm pair_importance hq hsz
      have htop : PQ.top q = .ok (PQ.g (c.zero, 0) q.pq 0) := PQ.rd_eq _ _ _ hq.pos
      have hbest := PQ.QR.best pair_importance hq
      rw [htop]
      simp only [Res.bind_ok]
      generalize htt : PQ.g (c.zero, 0) q.pq 0 = t at hpop hbest
      obtain ⟨r, rem', hp1, hrt, hp2⟩ := perm_map_cons (fun r : Rem V => (r.2.1, r.1)) (hs.symm.trans hpop)
      have hR' := hR.perm hp1
      obtain ⟨hr1, hr2⟩ := hR'.range r (List.mem_cons_self ..)
      obtain ⟨m, hm, hd⟩ := hR'.pos r (List.mem_cons_self ..)
      have ht1 : t.1 = r.2.1 := by rw [← hrt]
      have ht2 : t.2 = r.1 := by rw [← hrt]
      have hrmem : r ∈ rem := hp1.mem_iff.2 (List.mem_cons_self ..)
      obtain ⟨x, hx, hxb, hxl, hxs, hxw, hxp⟩ := hF r.1 hr1 hr2
      have hrd : PQ.rd cp t.2 = .ok m := by rw [ht2]; simp [PQ.rd, hm]
      have hcpl : t.2 < cp.length := by rw [ht2, hcp]; omega
      have hwr : PQ.wr cp t.2 (m + 1) = .ok (cp.set t.2 (m + 1)) := PQ.wr_eq _ _ _ hcpl
      have hrs : PQ.rd slots t.2 = .ok x := by rw [ht2]; simp [PQ.rd, hx]
      rw [hrd]
      simp only [Res.bind_ok]
      rw [hwr]
      simp only [Res.bind_ok]
      rw [hrs]
      simp only [Res.bind_ok]
      have hdl : k - m = r.2.2.length + 1 := by
        have := congrArg List.length hd
        rw [List.length_drop, hxl, List.length_cons] at this
        exact this
      -- the least value is not below what was taken, nor above what is left
      have hb1 : ∀ y ∈ seq, y.1 ≤ t.1 := fun y hy => by rw [ht1]; exact hbelow y hy r hrmem
      have hb2 : ∀ r' ∈ rem, t.1 ≤ r'.2.1 := fun r' hr' => hbest (r'.2.1, r'.1) (hs.mem_iff.2 (List.mem_map_of_mem hr'))
      have hww : wt r.1 ≤ W := hwW _ hr1 hr2
      have hv0 : t.1 ∈ vals r.1 := by
        rw [ht1]; exact List.mem_of_mem_drop (by rw [hd]; exact List.mem_cons_self ..)
      -- the queue after the step
      have hstep : ∃ q' s' rem2, (if m + 1 < k then do
            let v ← cell slots t.2 (m + 1)
            PQ.replaceTop pairCmp q (v, t.2)
          else PQ.pop pairCmp q) = .ok q' ∧ PQ.QR (fun a b : V × Nat => b.1 ≤ a.1) (c.zero, 0) q' s' ∧ s'.Perm (rem2.map fun r => (r.2.1, r.1)) ∧
          RI k f n vals (cp.set t.2 (m + 1)) rem2 ∧ restLen rem2 + 1 = restLen rem ∧ (∀ r' ∈ rem2, t.1 ≤ r'.2.1) ∧
          ∀ p, restRk wt p rem = (if p t.1 then wt r.1 else 0) + restRk wt p rem2 := by
        have hrest : RI k f n vals (cp.set t.2 (m + 1)) rem' := by
          have hnd := hR'.nodup
          rw [List.map_cons, List.nodup_cons] at hnd
          refine ⟨fun r' h' => hR'.range r' (List.mem_cons_of_mem _ h'), fun r' h' => ?_, hnd.2⟩
          obtain ⟨m', e1, e2⟩ := hR'.pos r' (List.mem_cons_of_mem _ h')
          refine ⟨m', ?_, e2⟩
          rw [List.getElem?_set, if_neg, e1]
          rw [ht2]
          intro he
          exact hnd.1 (he ▸ List.mem_map_of_mem h')
        cases htl : r.2.2 with
        | nil =>
          rw [htl, List.length_nil] at hdl
          rw [if_neg (by omega)]
          obtain ⟨q', s', e, hq', hs'⟩ := PQ.pop_ok pair_importance hq hsz
          rw [htt] at hs'
          have hs2 : s'.Perm (rem'.map fun r => (r.2.1, r.1)) := by
            have : (t :: s').Perm (t :: rem'.map fun r => (r.2.1, r.1)) :=
              hs'.symm.trans (hpop.trans (List.Perm.cons t hp2.symm))
            exact (List.perm_cons _).1 this
          refine ⟨q', s', rem', e, hq', hs2, hrest, ?_, fun r' h' => hb2 r' (hp1.mem_iff.2 (List.mem_cons_of_mem _ h')), fun p => ?_⟩
          · rw [restLen_perm hp1]
            simp only [restLen, List.map_cons, List.sum_cons, htl, List.length_nil]
            omega
          · rw [restRk_perm wt p hp1]
            simp only [restRk, List.map_cons, List.sum_cons, htl, List.countP_cons, List.countP_nil, ht1]
            split <;> simp
        | cons v tl =>
          rw [htl, List.length_cons] at hdl
          rw [if_pos (by omega)]
          have hcell : cell slots t.2 (m + 1) = .ok v := by
            rw [ht2]
            refine cell_ok hF hr1 hr2 ?_
            have : (vals r.1)[m + 1]? = ((vals r.1).drop m)[1]? := by rw [List.getElem?_drop]
            rw [this, hd, htl]; rfl
          rw [hcell]
          simp only [Res.bind_ok]
          obtain ⟨q', s', e, hq', hs'⟩ := PQ.replaceTop_ok pair_importance hq (v, t.2) hsz
          have hvle : t.1 ≤ v := by
            have := hsort r hrmem
            rw [htl, ← ht1] at this
            exact (List.pairwise_cons.1 this).1 v (List.mem_cons_self ..)
          refine ⟨q', s', (r.1, v, tl) :: rem', e, hq', ?_, ?_, ?_, ?_, fun p => ?_⟩
          · rw [List.map_cons]
            have : ((v, r.1) :: rem'.map fun r : Rem V => (r.2.1, r.1)).Perm ((v, t.2) :: (q.pq.take q.size).drop 1) := by
              rw [ht2]; exact List.Perm.cons _ hp2
            exact hs'.trans this.symm
          · refine ⟨?_, ?_, ?_⟩
            · intro r' h'
              rcases List.mem_cons.1 h' with rfl | h'
              · exact ⟨hr1, hr2⟩
              · exact hrest.range r' h'
            · intro r' h'
              rcases List.mem_cons.1 h' with rfl | h'
              · refine ⟨m + 1, ?_, ?_⟩
                · rw [List.getElem?_set, if_pos ht2, if_pos hcpl]
                · show (vals r.1).drop (m + 1) = v :: tl
                  rw [← List.drop_drop, hd, htl]; rfl
              · exact hrest.pos r' h'
            · have hnd := hR'.nodup
              rw [List.map_cons] at hnd ⊢
              exact hnd
          · rw [restLen_perm hp1]
            simp only [restLen, List.map_cons, List.sum_cons, htl, List.length_cons]
            omega
          · intro r' h'
            rcases List.mem_cons.1 h' with rfl | h'
            · exact hvle
            · exact hb2 r' (hp1.mem_iff.2 (List.mem_cons_of_mem _ h'))
          · rw [restRk_perm wt p hp1]
            simp only [restRk, List.map_cons, List.sum_cons, htl, List.countP_cons, ht1]
            split <;> split <;> ring
      obtain ⟨q', s', rem2, e, hq', hs', hRI', hlen', hb3, hrk'⟩ := hstep
      rw [e]
      simp only [Res.bind_ok]
      have hcp' : (cp.set t.2 (m + 1)).length = k := by rw [List.length_set]; exact hcp
      have hsum : ((seq ++ [(t.1, wt r.1)]).map (·.2)).sum = (seq.map (·.2)).sum + wt r.1 := by simp
      have hA' : ∀ p, A p = rk p (seq ++ [(t.1, wt r.1)]) + restRk wt p rem2 := by
        intro p
        rw [hA p, hrk' p, rk_append, rk_single]; omega
      have hbel' : ∀ y ∈ seq ++ [(t.1, wt r.1)], ∀ r' ∈ rem2, y.1 ≤ r'.2.1 := by
        intro y hy r' h'
        rcases List.mem_append.1 hy with hy | hy
        · exact le_trans (hb1 y hy) (hb3 r' h')
        · rw [List.mem_singleton] at hy; subst hy; exact hb3 r' h'
      have hsv' : ∀ y ∈ seq ++ [(t.1, wt r.1)], ∃ i, f ≤ i ∧ i < n ∧ y.1 ∈ vals i := by
        intro y hy
        rcases List.mem_append.1 hy with hy | hy
        · exact hsv y hy
        · rw [List.mem_singleton] at hy; subst hy; exact ⟨r.1, hr1, hr2, hv0⟩
      rw [hxw]
      have hcast : ((seq.map (·.2)).sum : Nat) + (wt r.1 : Int) = (((seq ++ [(t.1, wt r.1)]).map (·.2)).sum : Nat) := by rw [hsum]; push_cast; rfl
      rw [hcast]
      split
      · next hgt =>
        have hgt' : off - 1 + out.length * W < (seq.map (·.2)).sum + wt r.1 := by rw [← hsum]; exact_mod_cast hgt
        have hT' := hT.put hb1 hww hgt'
        obtain ⟨out', e', hM⟩ := mergeLoop_ok c hF hnk hwW h1 hoff A htot hAle fuel rem2 q' s' _ _ _ hq' hs' hRI' hcp' (by omega) hT' hbel' hA'
          (by rw [List.length_append, List.length_singleton]; omega) hsv'
        refine ⟨out', ?_, hM⟩
        rw [← e']
        congr 1
        rw [List.length_append, List.length_singleton, Nat.add_mul]
        push_cast; ring
      · next hgt =>
        have hle : (seq.map (·.2)).sum + wt r.1 ≤ off - 1 + out.length * W := by
          rw [← hsum]; have := not_lt.1 hgt; exact_mod_cast this
        have hT' := hT.skip hb1 hle
        exact mergeLoop_ok c hF hnk hwW h1 hoff A htot hAle fuel rem2 q' s' _ _ _ hq' hs' hRI' hcp' (by omega) hT' hbel' hA' hout hsv'
    · rw [if_neg hlt]
      have hk : out.length = k := by omega
      refine ⟨out, by rw [hk]; rfl, hT.done A hA hk hbelow hsort htot hAle h1 hoff, fun x hx => ?_⟩
      obtain ⟨y, hy, rfl⟩ := hT.mem x hx
      exact hsv y hy

end Verif.Quantile
