import Verif.Quantile.Index
import Verif.Quantile.Props

/-! # The two searches of StatsQuantile agree (C230) -/

namespace Verif.Quantile

open Verif

variable {V : Type} [LinearOrder V]

/-! ## Specification -/

/-- Among the stored values, each repeated as often as its weight says and sorted, `x` is at index `i`: the weight of the smaller ones is at most `i`, that of those not larger is more. -/
def AtIndex (l : List (V × Int)) (i : Nat) (x : V) : Prop :=
  ((l.filter fun y => decide (y.1 < x)).map (·.2)).sum ≤ i ∧ (i : Int) < ((l.filter fun y => decide (y.1 ≤ x)).map (·.2)).sum

/-! ## Lemmas -/

/-- The buffers 0 to `n - 1` begin with sorted values. -/
def Front (slots : List (Slot V)) (n : Nat) (vals : Nat → List V) (wt : Nat → Nat) : Prop :=
  ∀ i, i < n → ∃ x r, slots[i]? = some x ∧ x.buf = some ((vals i).map some ++ r) ∧ vals i ≠ [] ∧ (vals i).Pairwise (· ≤ ·) ∧ x.weight = wt i ∧ 0 < wt i

theorem front_cell {slots : List (Slot V)} {n : Nat} {vals : Nat → List V} {wt : Nat → Nat} (hF : Front slots n vals wt) {i j : Nat} (hi : i < n) {v : V}
    (h : (vals i)[j]? = some v) : cell slots i j = .ok v := by
  obtain ⟨x, r, hx, hb, _⟩ := hF i hi
  obtain ⟨hj, he⟩ := List.getElem?_eq_some_iff.1 h
  have : ((vals i).map some ++ r)[j]? = some (some v) := by
    rw [List.getElem?_append_left (by rw [List.length_map]; exact hj), List.getElem?_map, h]; rfl
  simp [cell, PQ.rd, hx, hb, nonNull, this]

theorem fillQueue_front (c : Consts V) {slots : List (Slot V)} {n : Nat} {vals : Nat → List V} {wt : Nat → Nat} (hF : Front slots n vals wt)
    (hn : n < 2147483648) : ∀ (m i : Nat) (q : PQ.Q (V × Nat)) (s : List (V × Nat)), i + m = n → q.size ≤ i →
    PQ.QR (fun a b : V × Nat => b.1 ≤ a.1) (c.zero, 0) q s →
    ∃ q' s', ∃ rem : List (Rem V), fillQueue c slots m i q = .ok q' ∧ PQ.QR (fun a b : V × Nat => b.1 ≤ a.1) (c.zero, 0) q' s' ∧
      s'.Perm (rem.map (fun r : Rem V => (r.2.1, r.1)) ++ s) ∧ rem.map (·.1) = List.range' i m ∧ ∀ r ∈ rem, vals r.1 = r.2.1 :: r.2.2
  | 0, i, q, s, _, _, hq => ⟨q, s, [], rfl, hq, List.Perm.refl _, rfl, by simp⟩
  | m + 1, i, q, s, him, hqs, hq => by
    obtain ⟨x, r, hx, hb, hl, _⟩ := hF i (by omega)
    cases hv : vals i with
    | nil => exact absurd hv hl
    | cons v tl =>
      have hc : cell slots i 0 = .ok v := front_cell hF (by omega) (by rw [hv]; rfl)
      obtain ⟨q1, s1, e1, hq1, hs1⟩ := PQ.push_ok pair_importance hq (v, i) (by omega)
      have hsz : q1.size = q.size + 1 := by rw [← hq1.length, hs1.length_eq, List.length_cons, hq.length]
      obtain ⟨q', s', rem, e2, hq', hs', hr1, hr2⟩ := fillQueue_front c hF hn m (i + 1) q1 s1 (by omega) (by omega) hq1
      refine ⟨q', s', (i, v, tl) :: rem, ?_, hq', ?_, ?_, ?_⟩
      · rw [fillQueue, hc]
        simp only [Res.bind_ok]
        rw [e1]
        simp only [Res.bind_ok]
        exact e2
      · refine hs'.trans ((List.Perm.append_left _ hs1).trans ?_)
        rw [List.map_cons]
        exact List.perm_middle
      · rw [List.map_cons, hr1, List.range'_succ]
      · intro r hr
        rcases List.mem_cons.1 hr with rfl | hr
        · exact hv
        · exact hr2 r hr

theorem fillQueue_last (c : Consts V) (slots : List (Slot V)) : ∀ (m i : Nat) (q : PQ.Q (V × Nat)),
    fillQueue c slots (m + 1) i q = (do
      let q ← fillQueue c slots m i q
      let v ← cell slots (i + m) 0
      PQ.push pairCmp (c.zero, 0) q (v, i + m))
  | 0, i, q => by
    simp only [fillQueue, Res.bind_ok, Nat.add_zero]
    cases cell slots i 0 with
    | ok v =>
      simp only [Res.bind_ok]
      cases PQ.push pairCmp (c.zero, 0) q (v, i) <;> rfl
    | abort => rfl
    | ub => rfl
  | m + 1, i, q => by
    rw [fillQueue]
    conv => rhs; rw [fillQueue]
    cases cell slots i 0 with
    | ok v =>
      simp only [Res.bind_ok]
      cases PQ.push pairCmp (c.zero, 0) q (v, i) with
      | ok q =>
        simp only [Res.bind_ok]
        rw [fillQueue_last c slots m (i + 1) q, show i + 1 + m = i + (m + 1) by omega]
      | abort => rfl
      | ub => rfl
    | abort => rfl
    | ub => rfl

theorem indexLoop_ok (c : Consts V) {slots : List (Slot V)} {k n cur pos : Nat} {vals : Nat → List V} {wt : Nat → Nat} (hF : Front slots n vals wt) (hnk : n ≤ k)
    (hlen : ∀ i, i < n → (vals i).length = if i < cur then k else pos) (A : (V → Bool) → Nat) (target : Nat) :
    ∀ (fuel : Nat) (rem : List (Rem V)) (q : PQ.Q (V × Nat)) (s : List (V × Nat)) (cp : List Nat) (seq : List (V × Nat)),
    PQ.QR (fun a b : V × Nat => b.1 ≤ a.1) (c.zero, 0) q s → s.Perm (rem.map fun r => (r.2.1, r.1)) → RI k 0 n vals cp rem → cp.length = k →
    restLen rem < fuel → (∀ x ∈ seq, ∀ r ∈ rem, x.1 ≤ r.2.1) → (∀ p, A p = rk p seq + restRk wt p rem) → (seq.map (·.2)).sum ≤ target →
    (∃ x, indexLoop slots k cur pos target fuel q cp ((seq.map (·.2)).sum : Nat) = .ok (some x) ∧ A (fun v => decide (v < x)) ≤ target ∧
      target < A (fun v => decide (v ≤ x))) ∨
    (indexLoop slots k cur pos target fuel q cp ((seq.map (·.2)).sum : Nat) = .ok none ∧ A (fun _ => true) ≤ target)
  | 0, rem, q, s, cp, seq, _, _, _, _, hfu, _, _, _ => absurd hfu (Nat.not_lt_zero _)
  | fuel + 1, rem, q, s, cp, seq, hq, hs, hR, hcp, hfu, hbelow, hA, hT => by
    have hsort : ∀ r ∈ rem, (r.2.1 :: r.2.2).Pairwise (· ≤ ·) := by
      intro r hr
      obtain ⟨m, _, hd⟩ := hR.pos r hr
      obtain ⟨_, h2⟩ := hR.range r hr
      obtain ⟨x, _, _, _, _, hsorted, _⟩ := hF r.1 h2
      rw [← hd]
      exact hsorted.sublist (List.drop_sublist _ _)
    have hlenq : s.length = q.size := hq.length
    rw [indexLoop]
    by_cases hsz : q.size = 0
    · rw [if_pos hsz]
      right
      refine ⟨rfl, ?_⟩
      have hrem : rem = [] := by
        have := hs.length_eq
        rw [hlenq, hsz, List.length_map] at this
        exact List.length_eq_zero_iff.1 this.symm
      subst hrem
      rw [hA, rk_all_le _ _ (fun _ _ => rfl)]
      simpa [restRk] using hT
    · rw [if_neg hsz]
      have hpop := PQ.QR.pop_perm pair_importance hq hsz
      have htop : PQ.top q = .ok (PQ.g (c.zero, 0) q.pq 0) := PQ.rd_eq _ _ _ hq.pos
      have hbest := PQ.QR.best pair_importance hq
      rw [htop]
      simp only [Res.bind_ok]
      generalize htt : PQ.g (c.zero, 0) q.pq 0 = t at hpop hbest
      obtain ⟨r, rem', hp1, hrt, hp2⟩ := perm_map_cons (fun r : Rem V => (r.2.1, r.1)) (hs.symm.trans hpop)
      have hR' := hR.perm hp1
      obtain ⟨_, hr2⟩ := hR'.range r (List.mem_cons_self ..)
      obtain ⟨m, hm, hd⟩ := hR'.pos r (List.mem_cons_self ..)
      have ht1 : t.1 = r.2.1 := by rw [← hrt]
      have ht2 : t.2 = r.1 := by rw [← hrt]
      have hrmem : r ∈ rem := hp1.mem_iff.2 (List.mem_cons_self ..)
      obtain ⟨x, _, hx, hxb, hxn, hxs, hxw, hxp⟩ := hF r.1 hr2
      have hrd : PQ.rd cp t.2 = .ok m := by rw [ht2]; simp [PQ.rd, hm]
      have hcpl : t.2 < cp.length := by rw [ht2, hcp]; omega
      have hwr : PQ.wr cp t.2 (m + 1) = .ok (cp.set t.2 (m + 1)) := PQ.wr_eq _ _ _ hcpl
      have hrs : PQ.rd slots t.2 = .ok x := by rw [ht2]; simp [PQ.rd, hx]
      rw [hrd]
      simp only [Res.bind_ok]
      rw [hwr]
      simp only [Res.bind_ok]
      rw [hrs]
      simp only [Res.bind_ok]
      have hdl : (vals r.1).length - m = r.2.2.length + 1 := by
        have := congrArg List.length hd
        rw [List.length_drop, List.length_cons] at this
        exact this
      have hb1 : ∀ y ∈ seq, y.1 ≤ t.1 := fun y hy => by rw [ht1]; exact hbelow y hy r hrmem
      have hb2 : ∀ r' ∈ rem, t.1 ≤ r'.2.1 := fun r' hr' => hbest (r'.2.1, r'.1) (hs.mem_iff.2 (List.mem_map_of_mem hr'))
      have hstep : ∃ q' s' rem2, advance slots k cur pos t.2 (m + 1) q = .ok q' ∧ PQ.QR (fun a b : V × Nat => b.1 ≤ a.1) (c.zero, 0) q' s' ∧ s'.Perm (rem2.map fun r => (r.2.1, r.1)) ∧
          RI k 0 n vals (cp.set t.2 (m + 1)) rem2 ∧ restLen rem2 + 1 = restLen rem ∧ (∀ r' ∈ rem2, t.1 ≤ r'.2.1) ∧
          ∀ p, restRk wt p rem = (if p t.1 then wt r.1 else 0) + restRk wt p rem2 := by
        unfold advance
        rw [show (if t.2 < cur then k else pos) = (vals r.1).length by rw [hlen r.1 hr2, ht2]]
        have hrest : RI k 0 n vals (cp.set t.2 (m + 1)) rem' := by
          have hnd := hR'.nodup
          rw [List.map_cons, List.nodup_cons] at hnd
          refine ⟨fun r' h' => hR'.range r' (List.mem_cons_of_mem _ h'), fun r' h' => ?_, hnd.2⟩
          obtain ⟨m', e1, e2⟩ := hR'.pos r' (List.mem_cons_of_mem _ h')
          refine ⟨m', ?_, e2⟩
          rw [List.getElem?_set, if_neg, e1]
          rw [ht2]
          intro he
          exact hnd.1 (he ▸ List.mem_map_of_mem h')
        cases htl : r.2.2 with
        | nil =>
          rw [htl, List.length_nil] at hdl
          rw [if_neg (by omega)]
          obtain ⟨q', s', e, hq', hs'⟩ := PQ.pop_ok pair_importance hq hsz
          rw [htt] at hs'
          have hs2 : s'.Perm (rem'.map fun r => (r.2.1, r.1)) := by
            have : (t :: s').Perm (t :: rem'.map fun r => (r.2.1, r.1)) :=
              hs'.symm.trans (hpop.trans (List.Perm.cons t hp2.symm))
            exact (List.perm_cons _).1 this
          refine ⟨q', s', rem', e, hq', hs2, hrest, ?_, fun r' h' => hb2 r' (hp1.mem_iff.2 (List.mem_cons_of_mem _ h')), fun p => ?_⟩
          · rw [restLen_perm hp1]
            simp only [restLen, List.map_cons, List.sum_cons, htl, List.length_nil]
            omega
          · rw [restRk_perm wt p hp1]
            simp only [restRk, List.map_cons, List.sum_cons, htl, List.countP_cons, List.countP_nil, ht1]
            split <;> simp
        | cons v tl =>
          rw [htl, List.length_cons] at hdl
          rw [if_pos (by omega)]
          have hcell : cell slots t.2 (m + 1) = .ok v := by
            rw [ht2]
            refine front_cell hF hr2 ?_
            have : (vals r.1)[m + 1]? = ((vals r.1).drop m)[1]? := by rw [List.getElem?_drop]
            rw [this, hd, htl]; rfl
          rw [hcell]
          simp only [Res.bind_ok]
          obtain ⟨q', s', e, hq', hs'⟩ := PQ.replaceTop_ok pair_importance hq (v, t.2) hsz
          have hvle : t.1 ≤ v := by
            have := hsort r hrmem
            rw [htl, ← ht1] at this
            exact (List.pairwise_cons.1 this).1 v (List.mem_cons_self ..)
          refine ⟨q', s', (r.1, v, tl) :: rem', e, hq', ?_, ?_, ?_, ?_, fun p => ?_⟩
          · rw [List.map_cons]
            have : ((v, r.1) :: rem'.map fun r : Rem V => (r.2.1, r.1)).Perm ((v, t.2) :: (q.pq.take q.size).drop 1) := by
              rw [ht2]; exact List.Perm.cons _ hp2
            exact hs'.trans this.symm
          · refine ⟨?_, ?_, ?_⟩
            · intro r' h'
              rcases List.mem_cons.1 h' with rfl | h'
              · exact ⟨Nat.zero_le _, hr2⟩
              · exact hrest.range r' h'
            · intro r' h'
              rcases List.mem_cons.1 h' with rfl | h'
              · refine ⟨m + 1, ?_, ?_⟩
                · rw [List.getElem?_set, if_pos ht2, if_pos hcpl]
                · show (vals r.1).drop (m + 1) = v :: tl
                  rw [← List.drop_drop, hd, htl]; rfl
              · exact hrest.pos r' h'
            · have hnd := hR'.nodup
              rw [List.map_cons] at hnd ⊢
              exact hnd
          · rw [restLen_perm hp1]
            simp only [restLen, List.map_cons, List.sum_cons, htl, List.length_cons]
            omega
          · intro r' h'
            rcases List.mem_cons.1 h' with rfl | h'
            · exact hvle
            · exact hb2 r' (hp1.mem_iff.2 (List.mem_cons_of_mem _ h'))
          · rw [restRk_perm wt p hp1]
            simp only [restRk, List.map_cons, List.sum_cons, htl, List.countP_cons, ht1]
            split <;> split <;> ring
      obtain ⟨q', s', rem2, e, hq', hs', hRI', hlen', hb3, hrk'⟩ := hstep
      have hsum : ((seq ++ [(t.1, wt r.1)]).map (·.2)).sum = (seq.map (·.2)).sum + wt r.1 := by simp
      rw [hxw]
      have hcast : ((seq.map (·.2)).sum : Nat) + (wt r.1 : Int) = (((seq ++ [(t.1, wt r.1)]).map (·.2)).sum : Nat) := by rw [hsum]; push_cast; rfl
      rw [hcast]
      by_cases hgt : ((((seq ++ [(t.1, wt r.1)]).map (·.2)).sum : Nat) : Int) > (target : Int)
      · rw [if_pos hgt]
        left
        refine ⟨t.1, rfl, ?_, ?_⟩
        · have hz : restRk wt (fun v => decide (v < t.1)) rem = 0 := by
            unfold restRk
            rw [List.sum_eq_zero]
            intro y hy
            obtain ⟨r', hr', rfl⟩ := List.mem_map.1 hy
            have : (r'.2.1 :: r'.2.2).countP (fun v => decide (v < t.1)) = 0 := List.countP_eq_zero.2 (fun z hz hlt => by
              rw [decide_eq_true_eq] at hlt
              have h1 := hb2 r' hr'
              rcases List.mem_cons.1 hz with rfl | hz
              · exact absurd hlt (not_lt.2 h1)
              · exact absurd hlt (not_lt.2 (le_trans h1 ((List.pairwise_cons.1 (hsort r' hr')).1 z hz))))
            rw [this, Nat.mul_zero]
          rw [hA, hz, Nat.add_zero]
          exact le_trans (rk_le_sum _ _) hT
        · rw [hA, hrk', rk_all_le _ _ (fun y hy => by simpa using hb1 y hy)]
          simp only [le_refl, decide_true, if_true]
          rw [hsum] at hgt
          have hgt' : target < (seq.map (·.2)).sum + wt r.1 := by exact_mod_cast hgt
          omega
      · rw [if_neg hgt, e]
        simp only [Res.bind_ok]
        refine indexLoop_ok c hF hnk hlen A target fuel rem2 q' s' _ (seq ++ [(t.1, wt r.1)]) hq' hs' hRI' (by rw [List.length_set]; exact hcp) (by omega) ?_ ?_ ?_
        · intro y hy r' h'
          rcases List.mem_append.1 hy with hy | hy
          · exact le_trans (hb1 y hy) (hb3 r' h')
          · rw [List.mem_singleton] at hy; subst hy; exact hb3 r' h'
        · intro p
          rw [hA p, hrk' p, rk_append, rk_single]; omega
        · have := not_lt.1 hgt; exact_mod_cast this

/-- A sketch whose buffers are sorted. -/
structure Ready (s : Sk V) (fs : List (Slot V)) (bs : List (Buf V)) (x : Slot V) (last : List V) (rest : List (Slot V)) (lv : Nat) : Prop where
  base : Base s
  slots : s.slots = fs ++ x :: rest
  full : List.Forall₂ (IsFull s.size) fs bs
  isLast : IsLast s.size x last lv
  sorted : last.Pairwise (· ≤ ·)
  ne : last ≠ []
  pos : s.pos = last.length
  cur : s.cur1 = fs.length + 1
  count : s.count = wsum bs * s.size + last.length

theorem query_ready (c : Consts V) (s : Sk V) {vals : List V} {xl xh : Nat} (hI : Inv s vals xl xh) (hc : s.count = vals.length) (hne : vals ≠ [])
    {target : Nat} {allow : Bool} {s' : Sk V} {y : Option V} (h : query c s target allow = .ok (s', y)) :
    ∃ fs bs x last rest lv, Ready s' fs bs x last rest lv := by
  obtain ⟨bs, last, ⟨hB, hS⟩, hR, hT, hnl⟩ := hI
  rcases hS with ⟨g1, g2, rfl, rfl⟩ | ⟨hcur, hp, fs, x, rest, lv, hslots, hfs, hx, hlev, hlv0⟩
  · exact absurd (List.length_eq_zero_iff.1 (by simpa [wsum] using hR.total.symm)) hne
  · have hbl : bs.length = fs.length := hfs.length_eq.symm
    have hslen : s.slots.length = fs.length + 1 + rest.length := by rw [hslots]; simp; omega
    have hroom := hB.room
    obtain ⟨x', last', e1, hx', hperm, hsort, hw'⟩ := sortAll_ok c hx hp rest fs bs 0 hfs (Nat.zero_add _) (by omega)
    have hll : last'.length = last.length := hperm.length_eq
    have hlast : last ≠ [] := by
      by_cases h : bs = []
      · subst h
        intro h0
        subst h0
        exact hne (List.length_eq_zero_iff.1 (by simpa [wsum] using hR.total.symm))
      · exact hnl h
    have hvl := List.length_pos_iff.2 hne
    have h2 : s.cur1 = fs.length + 1 := by omega
    unfold query at h
    rw [if_neg (by omega)] at h
    obtain ⟨_, _, h⟩ := Res.bind_eq_ok.1 h
    obtain ⟨slots, e, h⟩ := Res.bind_eq_ok.1 h
    obtain ⟨_, _, h⟩ := Res.bind_eq_ok.1 h
    obtain ⟨v, _, h⟩ := Res.bind_eq_ok.1 h
    have h1 : s.cur1 - 1 = fs.length := by omega
    rw [h1, h2, hslots, e1] at e
    have e := Res.ok.inj e
    subst e
    have h := (Prod.mk.inj (Res.ok.inj h)).1
    subst h
    refine ⟨fs, bs, x', last', rest, lv, ⟨?_, rfl, hfs, hx', hsort, ?_, ?_, h2, ?_⟩⟩
    · have hlen' : (fs ++ x' :: rest).length = s.slots.length := by rw [hslen]; simp; omega
      refine ⟨by show 1 < (fs ++ x' :: rest).length; rw [hlen']; exact hB.two, hB.ten, by show (fs ++ x' :: rest).length ≤ _; rw [hlen']; exact hB.room, hB.int, ?_⟩
      intro z hz
      have hz : z ∈ fs ++ x' :: rest := hz
      show (∀ b, z.buf = some b → b.length = s.size) ∧ (z.buf = none → s.lazy = true)
      rcases List.mem_append.1 hz with hz | hz
      · exact hB.bufs z (by rw [hslots]; exact List.mem_append_left _ hz)
      · rcases List.mem_cons.1 hz with rfl | hz
        · obtain ⟨r, hb', hr'⟩ := hx'.buf
          rw [hb']
          refine ⟨fun b hb => ?_, by simp⟩
          rw [← Option.some.inj hb, List.length_append, List.length_map]; exact hr'
        · exact hB.bufs z (by rw [hslots]; exact List.mem_append_right _ (List.mem_cons_of_mem _ hz))
    · intro h0; rw [h0] at hll; exact hlast (List.length_eq_zero_iff.1 hll.symm)
    · show s.pos = _; rw [hll]; exact hp
    · show s.count = _; rw [hc, hll]; exact hR.total.symm

/-- The weight of the stored values with `p`. -/
def weigh (p : V → Bool) (bs : List (Buf V)) (last : List V) : Nat := wrk p bs + last.countP p

theorem weigh_mono {p q : V → Bool} (h : ∀ v, p v = true → q v = true) (bs : List (Buf V)) (last : List V) : weigh p bs last ≤ weigh q bs last := by
  unfold weigh
  refine Nat.add_le_add ?_ (countP_le_of_imp h last)
  unfold wrk
  exact List.sum_le_sum fun d _ => Nat.mul_le_mul_left _ (countP_le_of_imp h d.vals)

theorem weigh_unique {bs : List (Buf V)} {last : List V} {t : Nat} {x y : V} (hx1 : weigh (fun v => decide (v < x)) bs last ≤ t)
    (hx2 : t < weigh (fun v => decide (v ≤ x)) bs last) (hy1 : weigh (fun v => decide (v < y)) bs last ≤ t) (hy2 : t < weigh (fun v => decide (v ≤ y)) bs last) : x = y := by
  rcases lt_trichotomy x y with h | h | h
  · have := weigh_mono (p := fun v => decide (v ≤ x)) (q := fun v => decide (v < y)) (fun v hv => by
      rw [decide_eq_true_eq] at hv ⊢; exact lt_of_le_of_lt hv h) bs last
    omega
  · exact h
  · have := weigh_mono (p := fun v => decide (v ≤ y)) (q := fun v => decide (v < x)) (fun v hv => by
      rw [decide_eq_true_eq] at hv ⊢; exact lt_of_le_of_lt hv h) bs last
    omega

theorem Ready.total {s : Sk V} {fs : List (Slot V)} {bs : List (Buf V)} {x : Slot V} {last : List V} {rest : List (Slot V)} {lv : Nat} (h : Ready s fs bs x last rest lv) :
    weigh (fun _ => true) bs last = s.count := by
  unfold weigh
  rw [wsum_le_wrk_true h.full, List.countP_eq_length.2 (fun _ _ => rfl), h.count]

theorem Ready.bin {s : Sk V} {fs : List (Slot V)} {bs : List (Buf V)} {x : Slot V} {last : List V} {rest : List (Slot V)} {lv : Nat} (h : Ready s fs bs x last rest lv)
    {target : Nat} (ht : target < s.count) : ∃ v, byBinSearch s (s.cur1 - 1) target = .ok v ∧ weigh (fun w => decide (w < v)) bs last ≤ target ∧
      target < weigh (fun w => decide (w ≤ v)) bs last := by
  have h1 : s.cur1 - 1 = fs.length := by have := h.cur; omega
  rw [h1]
  set st : List (Bin V) := (bs.map fun d => ⟨d.vals, (d.wt : Int), 0, d.vals.length⟩) ++ [⟨last, 1, 0, last.length⟩] with hst
  have hbrk : ∀ p, brk p st = ((weigh p bs last : Nat) : Int) := by
    intro p
    rw [hst, brk_append, brk_bins]
    unfold weigh
    simp only [brk, List.map_cons, List.map_nil, List.sum_cons, List.sum_nil]
    push_cast; ring
  have hBin : ∀ b ∈ st, BinOk (fun _ => false) (fun _ => true) b := by
    intro b hb
    rcases List.mem_append.1 hb with hb | hb
    · obtain ⟨d, hd, rfl⟩ := List.mem_map.1 hb
      obtain ⟨i, hi, rfl⟩ := List.getElem_of_mem hd
      have h := (List.forall₂_iff_get.1 h.full).2 i (by have := h.full.length_eq; omega) hi
      exact ⟨h.sorted, by simp, by simp, by simpa using h.pos⟩
    · rw [List.mem_singleton] at hb
      subst hb
      exact ⟨h.sorted, by simp, by simp, by simp⟩
  have hentries : (st.map fun b => b.weight * (b.vals.length : Int)).sum = (s.count : Int) := by
    have e := hbrk (fun _ => true)
    rw [h.total] at e
    rw [← e]
    unfold brk
    refine isum_congr _ _ st fun b _ => ?_
    rw [List.countP_eq_length.2 (fun _ _ => rfl)]
  obtain ⟨v, e2, r1, r2, -⟩ := binSearch_ok target s.count (st.map (fun b : Bin V => b.vals.length)).sum.succ st (fun _ => false) (fun _ => true)
    (fun _ _ _ h => h) (fun _ _ _ h => h) hBin (by rw [hbrk]; simp [weigh, wrk]) (by rw [hbrk, h.total]; exact_mod_cast ht) hentries (by
      have : width st = (st.map (fun b : Bin V => b.vals.length)).sum := by
        unfold width
        refine congrArg List.sum (List.map_congr_left fun b hb => ?_)
        have h := hBin b hb
        rw [h.min, h.max]; simp
      omega)
  rw [hbrk] at r1 r2
  refine ⟨v, ?_, by exact_mod_cast r1, by exact_mod_cast r2⟩
  unfold byBinSearch
  have h3 : s.slots.take fs.length = fs := by rw [h.slots]; simp
  rw [h3, binsFull_ok h.full]
  simp only [Res.bind_ok]
  have hlp : 0 < last.length := List.length_pos_iff.2 h.ne
  have h4 : binsLast s fs.length = .ok [⟨last, 1, 0, last.length⟩] := by
    unfold binsLast
    rw [if_pos (by rw [h.pos]; exact hlp)]
    have h6 : PQ.rd s.slots fs.length = .ok x := by rw [h.slots]; exact rd_mid _ _ _ rfl
    rw [h6]
    simp only [Res.bind_ok]
    obtain ⟨r, hb', hr'⟩ := h.isLast.buf
    have h8 : (last.map some ++ r).take last.length = last.map some := by rw [List.take_append_of_le_length (by simp)]; simp
    rw [hb', h.pos]
    simp only [nonNull, Res.bind_ok, h8, cells_map, Res.pure_eq, h.isLast.weight]
  rw [h4]
  simp only [Res.bind_ok]
  have h9 : ((fs.map fun x => x.weight * (s.size : Int)).sum + (s.pos : Int)) = (s.count : Int) := by
    rw [weights_full h.full, h.count, h.pos]; push_cast; rfl
  rw [h9]
  simp only [decide_true, Res.require_true, Res.bind_ok]
  exact e2

theorem Ready.index (c : Consts V) {s : Sk V} {fs : List (Slot V)} {bs : List (Buf V)} {x : Slot V} {last : List V} {rest : List (Slot V)} {lv : Nat} (h : Ready s fs bs x last rest lv)
    (target : Nat) : (∃ v, byIndex c s target = .ok (some v) ∧ weigh (fun w => decide (w < v)) bs last ≤ target ∧ target < weigh (fun w => decide (w ≤ v)) bs last) ∨
      (byIndex c s target = .ok none ∧ s.count ≤ target) := by
  have hbl : bs.length = fs.length := h.full.length_eq.symm
  have h1 : s.cur1 - 1 = fs.length := by have := h.cur; omega
  have hlp : 0 < last.length := List.length_pos_iff.2 h.ne
  have hroom := h.base.room
  have hslen : s.slots.length = fs.length + 1 + rest.length := by rw [h.slots]; simp; omega
  set ds : List (Buf V) := bs ++ [⟨last, 1, 0⟩] with hds
  have hdl : ds.length = fs.length + 1 := by rw [hds]; simp [hbl]
  have hF : Front s.slots (fs.length + 1) (dv ds) (dw ds) := by
    intro i hi
    by_cases hif : i < fs.length
    · have hf : IsFull s.size fs[i] bs[i] := (List.forall₂_iff_get.1 h.full).2 i hif (by omega)
      refine ⟨fs[i], [], by rw [h.slots, List.getElem?_append_left hif, List.getElem?_eq_getElem hif], ?_⟩
      have e : ds[i]? = some bs[i] := by rw [hds, List.getElem?_append_left (by omega), List.getElem?_eq_getElem (by omega)]
      simp only [dv, dw, e, Option.getD_some, List.append_nil]
      refine ⟨hf.buf, ?_, hf.sorted, hf.weight, hf.pos⟩
      intro h0
      have := hf.len
      rw [h0] at this
      have := h.base.ten
      simp at *; omega
    · have hie : i = fs.length := by omega
      subst hie
      obtain ⟨r, hb, _⟩ := h.isLast.buf
      refine ⟨x, r, by rw [h.slots, List.getElem?_append_right (Nat.le_refl _), Nat.sub_self]; rfl, ?_⟩
      have e : ds[fs.length]? = some ⟨last, 1, 0⟩ := by rw [hds, ← hbl, List.getElem?_append_right (Nat.le_refl _), Nat.sub_self]; rfl
      simp only [dv, dw, e, Option.getD_some]
      exact ⟨hb, h.ne, h.sorted, h.isLast.weight, by decide⟩
  have hlen : ∀ i, i < fs.length + 1 → (dv ds i).length = if i < fs.length then s.size else s.pos := by
    intro i hi
    by_cases hif : i < fs.length
    · have hf : IsFull s.size fs[i] bs[i] := (List.forall₂_iff_get.1 h.full).2 i hif (by omega)
      have e : ds[i]? = some bs[i] := by rw [hds, List.getElem?_append_left (by omega), List.getElem?_eq_getElem (by omega)]
      rw [if_pos hif]
      simp only [dv, e, Option.getD_some]
      exact hf.len
    · have hie : i = fs.length := by omega
      subst hie
      have e : ds[fs.length]? = some ⟨last, 1, 0⟩ := by rw [hds, ← hbl, List.getElem?_append_right (Nat.le_refl _), Nat.sub_self]; rfl
      rw [if_neg (Nat.lt_irrefl _), h.pos]
      simp only [dv, e, Option.getD_some]
  have hqn : PQ.QR (fun a b : V × Nat => b.1 ≤ a.1) (c.zero, 0) (PQ.new (c.zero, 0) s.slots.length) [] :=
    PQ.QR.new pair_importance (c.zero, 0) s.slots.length (by omega)
  obtain ⟨q, sq, rem, eq, hq, hsq, hr1, hr2⟩ := fillQueue_front c hF (by have := h.base.int; omega) (fs.length + 1) 0 (PQ.new (c.zero, 0) s.slots.length) []
    (by omega) (Nat.zero_le _) hqn
  rw [List.append_nil] at hsq
  have hrk : ∀ p, restRk (dw ds) p rem = weigh p bs last := by
    intro p
    have : restRk (dw ds) p rem = ((rem.map (·.1)).map fun i => dw ds i * (dv ds i).countP p).sum := by
      unfold restRk
      rw [List.map_map]
      refine congrArg List.sum (List.map_congr_left fun r hr => ?_)
      simp only [Function.comp, hr2 r hr]
    rw [this, hr1]
    have e := sum_range' (ds := ds) (fun d => d.wt * d.vals.countP p) (fs.length + 1) 0 (by omega)
    refine e.trans ?_
    rw [hds]
    unfold weigh wrk
    simp
  have hlen' : restLen rem = fs.length * s.size + s.pos := by
    have : restLen rem = ((rem.map (·.1)).map fun i => (dv ds i).length).sum := by
      unfold restLen
      rw [List.map_map]
      refine congrArg List.sum (List.map_congr_left fun r hr => ?_)
      simp only [Function.comp, hr2 r hr, List.length_cons]
    rw [this, hr1, List.range'_concat, List.map_append, List.sum_append]
    have h2 : ((List.range' 0 fs.length).map fun i => (dv ds i).length) = (List.range' 0 fs.length).map fun _ => s.size :=
      List.map_congr_left fun i hi => by
        have := List.mem_range'_1.1 hi
        rw [hlen i (by omega), if_pos (by omega)]
    rw [h2]
    have h3 : (dv ds (0 + 1 * fs.length)).length = s.pos := by
      rw [Nat.zero_add, Nat.one_mul, hlen _ (by omega), if_neg (Nat.lt_irrefl _)]
    simp only [List.map_cons, List.map_nil, List.sum_cons, List.sum_nil, h3]
    simp
  have hby : byIndex c s target = indexLoop s.slots s.size fs.length s.pos target (fs.length * s.size + s.pos + 1) q (List.replicate s.size 0) 0 := by
    unfold byIndex
    rw [if_neg (by rw [h.cur]; omega), if_neg (by rw [h.cur]; omega), h1]
    rw [fillQueue_last, Nat.zero_add] at eq
    obtain ⟨q0, e0, eq⟩ := Res.bind_eq_ok.1 eq
    rw [e0]
    simp only [Res.bind_ok]
    have hpc : pushCurrent c s fs.length q0 = .ok q := by
      unfold pushCurrent
      rw [if_pos (by rw [h.pos]; exact hlp)]
      exact eq
    rw [hpc]
    simp only [Res.bind_ok]
  have hRI : RI s.size 0 (fs.length + 1) (dv ds) (List.replicate s.size 0) rem := by
    refine ⟨fun r hr => ?_, fun r hr => ⟨0, ?_, by rw [List.drop_zero]; exact hr2 r hr⟩, by rw [hr1]; exact List.nodup_range'⟩
    · have : r.1 ∈ rem.map (·.1) := List.mem_map_of_mem hr
      rw [hr1] at this
      have := List.mem_range'_1.1 this
      omega
    · have : r.1 ∈ rem.map (·.1) := List.mem_map_of_mem hr
      rw [hr1] at this
      have := List.mem_range'_1.1 this
      rw [List.getElem?_replicate, if_pos (by omega)]
  have := indexLoop_ok c hF (by omega) hlen (fun p => weigh p bs last) target (fs.length * s.size + s.pos + 1) rem q sq (List.replicate s.size 0) [] hq hsq hRI
    (by simp) (by omega) (by simp) (fun p => by rw [hrk p]; simp [rk]) (by simp)
  simp only [List.map_nil, List.sum_nil, Nat.cast_zero] at this
  rw [hby]
  rw [h.total] at this
  exact this

/-- The weight of those of `l` that have `p`. -/
def sel (p : V → Bool) (l : List (V × Int)) : Int := ((l.filter fun y => p y.1).map (·.2)).sum

theorem sel_append (p : V → Bool) (l m : List (V × Int)) : sel p (l ++ m) = sel p l + sel p m := by simp [sel]

theorem sel_same (p : V → Bool) (w : Int) : ∀ l : List V, sel p (l.map fun v => (v, w)) = w * (l.countP p : Int)
  | [] => by simp [sel]
  | v :: l => by
    have ih := sel_same p w l
    unfold sel at ih ⊢
    rw [List.map_cons, List.filter_cons, List.countP_cons]
    by_cases h : p v = true
    · simp only [h, if_true, List.map_cons, List.sum_cons, ih]; push_cast; ring
    · simp only [h, if_false, ih, Bool.false_eq_true]; simp

theorem sel_full {k : Nat} (p : V → Bool) : ∀ {fs : List (Slot V)} {bs : List (Buf V)}, List.Forall₂ (IsFull k) fs bs →
    sel p (fs.flatMap (storedIn k)) = ((wrk p bs : Nat) : Int)
  | [], [], _ => by simp [sel, wrk]
  | x :: fs, d :: bs, .cons h hs => by
    have e : storedIn k x = d.vals.map fun v => (v, x.weight) := storedIn_some k x (r := []) (by rw [h.buf, List.append_nil]) h.len.symm
    rw [List.flatMap_cons, sel_append, sel_full p hs, e, sel_same, h.weight]
    simp [wrk]

theorem Ready.stored {s : Sk V} {fs : List (Slot V)} {bs : List (Buf V)} {x : Slot V} {last : List V} {rest : List (Slot V)} {lv : Nat} (h : Ready s fs bs x last rest lv)
    (p : V → Bool) : sel p (Quantile.stored s) = ((weigh p bs last : Nat) : Int) := by
  have h1 : s.cur1 - 1 = fs.length := by have := h.cur; omega
  unfold Quantile.stored
  rw [h1, if_neg (by rw [h.cur]; omega), h.slots]
  have e1 : (fs ++ x :: rest).take fs.length = fs := by simp
  have e2 : (fs ++ x :: rest)[fs.length]? = some x := by simp
  obtain ⟨r, hb, _⟩ := h.isLast.buf
  rw [e1, e2, sel_append, sel_full p h.full]
  simp only [Option.toList_some, List.flatMap_cons, List.flatMap_nil, List.append_nil]
  rw [storedIn_some s.pos x hb h.pos, sel_same, h.isLast.weight]
  unfold weigh
  push_cast; ring

theorem atIndex_of {s : Sk V} {fs : List (Slot V)} {bs : List (Buf V)} {x : Slot V} {last : List V} {rest : List (Slot V)} {lv : Nat} (h : Ready s fs bs x last rest lv)
    {i : Nat} {v : V} (h1 : weigh (fun w => decide (w < v)) bs last ≤ i) (h2 : i < weigh (fun w => decide (w ≤ v)) bs last) : AtIndex (stored s) i v := by
  have e1 := h.stored (fun w => decide (w < v))
  have e2 := h.stored (fun w => decide (w ≤ v))
  unfold sel at e1 e2
  unfold AtIndex
  rw [e1, e2]
  exact ⟨by exact_mod_cast h1, by exact_mod_cast h2⟩

/-! ## Theorems -/

/-- C230: after any use of a sketch that ended with a call of `getQuantile`, both searches give the same value for every index there is, which is the one at that index among the weighted stored values; for larger ones merging gives NaN. -/
theorem index_searches_agree_partial (c : Consts V) (h : Hist V) (t : Nat) (a : Bool) (hs : Sane (.query h t a)) (hne : values h ≠ []) :
    ∃ s, eval c (.query h t a) = .ok s ∧ (∀ i, i < (values h).length → ∃ x, AtIndex (stored s) i x ∧ byBinSearch s (s.cur1 - 1) i = .ok x ∧ byIndex c s i = .ok (some x)) ∧
      ∀ i, (values h).length ≤ i → byIndex c s i = .ok none := by
  obtain ⟨s, xl, xh, e, m⟩ := eval_ok c h hs.1
  obtain ⟨s', xl', xh', e', m'⟩ := eval_ok c (.query h t a) hs
  have hq : ∃ y, query c s t a = .ok (s', y) := by
    have e2 := e'
    unfold eval at e2
    rw [e] at e2
    simp only [Res.bind_ok] at e2
    obtain ⟨⟨s2, y⟩, e3, e4⟩ := Res.bind_eq_ok.1 e2
    obtain rfl := Res.ok.inj e4
    exact ⟨y, e3⟩
  obtain ⟨y, hq⟩ := hq
  obtain ⟨fs, bs, x, last, rest, lv, hr⟩ := query_ready c s m.inv m.count hne hq
  have hcount : s'.count = (values h).length := m'.count
  refine ⟨s', e', fun i hi => ?_, fun i hi => ?_⟩
  · obtain ⟨v, e1, g1, g2⟩ := hr.bin (target := i) (by omega)
    refine ⟨v, atIndex_of hr g1 g2, e1, ?_⟩
    rcases hr.index c i with ⟨w, e2, k1, k2⟩ | ⟨_, e3⟩
    · rw [e2, weigh_unique g1 g2 k1 k2]
    · omega
  · rcases hr.index c i with ⟨w, e2, k1, k2⟩ | ⟨e3, _⟩
    · have := weigh_mono (p := fun v => decide (v ≤ w)) (q := fun _ => true) (fun _ _ => rfl) bs last
      rw [hr.total] at this
      omega
    · exact e3

/-- At one index there is one value. -/
theorem atIndex_unique (l : List (V × Int)) (hp : ∀ y ∈ l, 0 ≤ y.2) (i : Nat) (x y : V) (hx : AtIndex l i x) (hy : AtIndex l i y) : x = y := by
  have key : ∀ a b : V, a < b → AtIndex l i a → AtIndex l i b → False := by
    intro a b hab ha hb
    have mono : ∀ m : List (V × Int), (∀ y ∈ m, 0 ≤ y.2) →
        ((m.filter fun y => decide (y.1 ≤ a)).map (·.2)).sum ≤ ((m.filter fun y => decide (y.1 < b)).map (·.2)).sum := by
      intro m
      induction m with
      | nil => intro _; simp
      | cons z m ih =>
        intro hm
        have h1 := ih fun y hy => hm y (List.mem_cons_of_mem _ hy)
        have h2 := hm z (List.mem_cons_self ..)
        rw [List.filter_cons, List.filter_cons]
        by_cases hza : z.1 ≤ a
        · rw [if_pos (by simpa using hza), if_pos (by simpa using lt_of_le_of_lt hza hab)]
          simp only [List.map_cons, List.sum_cons]
          omega
        · rw [if_neg (by simpa using hza)]
          split
          · simp only [List.map_cons, List.sum_cons]; omega
          · exact h1
    have := mono l hp
    have h1 := ha.2
    have h2 := hb.1
    omega
  rcases lt_trichotomy x y with h | h | h
  · exact (key x y h hx hy).elim
  · exact h
  · exact (key y x h hy hx).elim

/-- The merge reads the buffers as they are: in a sketch of two values that was not asked before, index 0 is the value added first, though it is larger. -/
theorem index_unsorted_false : ∃ s, eval (⟨0, 1000000⟩ : Consts Nat) (.add (.add (.new 2 10 1000 false) 2) 1) = .ok s ∧
    byIndex ⟨0, 1000000⟩ s 0 = .ok (some 2) ∧ byIndex ⟨0, 1000000⟩ s 1 = .ok (some 1) ∧ ¬ AtIndex (stored s) 0 2 := by
  refine ⟨_, rfl, by decide, by decide, by unfold AtIndex; decide⟩

/-- A new sketch that allocates on demand counts its missing buffer as full: asking it for an index is undefined behaviour. -/
theorem index_new_false (c : Consts V) : ∃ s, eval c (.new 2 10 1000 true) = .ok s ∧ byIndex c s 0 = .ub := ⟨_, rfl, rfl⟩

example : Sane (.query (adds (.new 2 10 1000 true) (List.range 90)) 45 false : Hist Nat) ∧ values (adds (.new 2 10 1000 true) (List.range 90)) ≠ [] := by
  refine ⟨⟨sane_adds _ _ (by simp [Sane]) (by simp [values]), Or.inl ?_, fun _ => ?_⟩, by simp [values_adds]⟩
  · rw [(config_adds _ _).2.1]; simp [values_adds, bound, values]
  · simp [values_adds, values]

end Verif.Quantile
