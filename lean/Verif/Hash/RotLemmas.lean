import Verif.Hash.SetLemmas

/-! # Consequences of the aged-map specification for single keys -/

namespace Verif.Hash

variable {K V : Type}

/-- A chain of specification steps. -/
inductive RotSteps (ke : K → K → Bool) (dv : V) : List (AgedEntry K V) → List (ROp K V) → List (AgedEntry K V) → Prop
  | nil (s : List (AgedEntry K V)) : RotSteps ke dv s [] s
  | cons {s s' s'' : List (AgedEntry K V)} {op : ROp K V} {o : MOut K V} {ops : List (ROp K V)} :
      RotStep ke dv s op o s' → RotSteps ke dv s' ops s'' → RotSteps ke dv s (op :: ops) s''

variable {m : MapCfg K V} {r : Rot K V} {s : List (AgedEntry K V)} {n : Nat}

theorem touch_key (ok : MapOk m) (k k' : K) (e : AgedEntry K V) :
    m.ke k (if m.ke k' e.key then refresh k' e else e).key = m.ke k e.key := by
  split
  · rename_i hk
    unfold refresh
    split
    · rfl
    · show m.ke k k' = m.ke k e.key
      rw [ke_comm ok k k', ke_comm ok k e.key]
      exact ke_cong ok hk k
  · rfl

theorem aget_map (k : K) (f : AgedEntry K V → AgedEntry K V) (hf : ∀ e, m.ke k (f e).key = m.ke k e.key) :
    aget m.ke (s.map f) k = (aget m.ke s k).map f := by
  unfold aget
  rw [List.find?_map]
  congr 1
  apply congrArg (fun p => s.find? p)
  funext e
  exact hf e

theorem aget_cons (e : AgedEntry K V) (k : K) :
    aget m.ke (e :: s) k = if m.ke k e.key then some e else aget m.ke s k := by
  unfold aget
  rw [List.find?_cons]
  cases m.ke k e.key <;> simp

theorem aget_touch (ok : MapOk m) (k k' : K) :
    aget m.ke (touch m.ke s k') k = (aget m.ke s k).map (fun e => if m.ke k' e.key then refresh k' e else e) :=
  aget_map k _ (fun e => touch_key ok k k' e)

theorem aget_put_map (ok : MapOk m) (k k' : K) (v : V) :
    aget m.ke (s.map (fun e => if m.ke k' e.key then { refresh k' e with val := v } else e)) k =
      (aget m.ke s k).map (fun e => if m.ke k' e.key then { refresh k' e with val := v } else e) := by
  refine aget_map k _ ?_
  intro e
  have := touch_key ok k k' e
  by_cases h : m.ke k' e.key = true
  · rw [if_pos h] at this ⊢; exact this
  · rw [if_neg h]

theorem aget_filter (ok : MapOk m) (k k' : K) (hne : m.ke k' k = false) :
    aget m.ke (s.filter (fun e => !m.ke k' e.key)) k = aget m.ke s k := by
  induction s with
  | nil => rfl
  | cons e s ih =>
    by_cases h : m.ke k' e.key = true
    · rw [List.filter_cons_of_neg (by simp [h]), ih, aget_cons, if_neg]
      intro h2
      rw [ok.trans _ _ _ h (ok.symm _ _ h2)] at hne; cases hne
    · rw [List.filter_cons_of_pos (by simp [h]), aget_cons, aget_cons, ih]

theorem aget_key {k : K} {e : AgedEntry K V} (h : aget m.ke s k = some e) : m.ke k e.key = true := by
  have := List.find?_some h
  simpa using this

/-- Calls that neither rotate nor overwrite nor remove `k`. -/
def Keeps (ke : K → K → Bool) (k : K) : ROp K V → Prop
  | .set k' _ => ke k' k = false
  | .remove k' _ => ke k' k = false
  | .rotate | .rotateFn | .flushRotate | .flushRotateFn => False
  | _ => True

/-- Calls that neither use nor rotate `k`: looking without promoting, removing, and anything about
other keys. -/
def Ignores (ke : K → K → Bool) (k : K) : ROp K V → Prop
  | .set k' _ | .index k' | .lookup k' | .exists' k' => ke k' k = false
  | _ => True

theorem refresh_val (k : K) (e : AgedEntry K V) : (refresh k e).val = e.val := by unfold refresh; split <;> rfl
theorem refresh_age (k : K) (e : AgedEntry K V) : (refresh k e).age = 0 := by
  unfold refresh; split
  · assumption
  · rfl

/-- A recent entry stays recent with its value. -/
theorem keeps_step (ok : MapOk m) {op : ROp K V} {o : MOut K V} {s' : List (AgedEntry K V)} {k : K} {v : V}
    (hk : Keeps m.ke k op) (hst : RotStep m.ke m.dv s op o s')
    (h : ∃ e, aget m.ke s k = some e ∧ e.age = 0 ∧ e.val = v) : ∃ e, aget m.ke s' k = some e ∧ e.age = 0 ∧ e.val = v := by
  obtain ⟨e, hg, ha, hv⟩ := h
  have htouch : ∀ k', ∃ e, aget m.ke (touch m.ke s k') k = some e ∧ e.age = 0 ∧ e.val = v := by
    intro k'
    rw [aget_touch ok, hg]
    refine ⟨_, rfl, ?_, ?_⟩ <;> dsimp only
    · split
      · exact refresh_age _ _
      · exact ha
    · split
      · rw [refresh_val]; exact hv
      · exact hv
  cases op with
  | set k' w =>
    obtain ⟨_, rfl⟩ := hst
    unfold aput
    split
    · rw [aget_put_map ok, hg]
      have hn : m.ke k' e.key = false := by
        cases h2 : m.ke k' e.key with
        | false => rfl
        | true =>
          have h3 : m.ke k' k = false := hk
          rw [ok.trans _ _ _ h2 (ok.symm _ _ (aget_key hg))] at h3; cases h3
      simp [hn, ha, hv]
    · rw [aget_cons, if_neg]
      · exact ⟨e, hg, ha, hv⟩
      · intro h2
        have h3 : m.ke k' k = false := hk
        rw [ok.symm _ _ h2] at h3; cases h3
  | index k' =>
    obtain ⟨_, rfl⟩ := hst
    split
    · exact htouch k'
    · rename_i h2
      rw [aget_cons, if_neg]
      · exact ⟨e, hg, ha, hv⟩
      · intro h3
        apply h2
        have : aget m.ke s k' = aget m.ke s k := by
          unfold aget
          apply congrArg (fun p => s.find? p)
          funext x
          exact (ke_cong ok h3 x.key).symm
        rw [this, hg]; rfl
  | lookup k' => obtain ⟨_, rfl⟩ := hst; exact htouch k'
  | exists' k' => obtain ⟨_, rfl⟩ := hst; exact htouch k'
  | existsNoPromote k' => obtain ⟨_, rfl⟩ := hst; exact ⟨e, hg, ha, hv⟩
  | existsRecent k' => obtain ⟨_, rfl⟩ := hst; exact ⟨e, hg, ha, hv⟩
  | existsOld k' => obtain ⟨_, rfl⟩ := hst; exact ⟨e, hg, ha, hv⟩
  | remove k' must =>
    obtain ⟨_, _, rfl⟩ := hst
    rw [aget_filter ok k k' hk]
    exact ⟨e, hg, ha, hv⟩
  | rotate => exact absurd hk id
  | rotateFn => exact absurd hk id
  | flushRotate => exact absurd hk id
  | flushRotateFn => exact absurd hk id
  | walk => obtain ⟨rfl, _⟩ := hst; exact ⟨e, hg, ha, hv⟩
  | size => obtain ⟨_, rfl⟩ := hst; exact ⟨e, hg, ha, hv⟩
  | sizeRecent => obtain ⟨_, rfl⟩ := hst; exact ⟨e, hg, ha, hv⟩
  | sizeOld => obtain ⟨_, rfl⟩ := hst; exact ⟨e, hg, ha, hv⟩

theorem keeps_steps (ok : MapOk m) {k : K} {v : V} {ops : List (ROp K V)} {s s' : List (AgedEntry K V)}
    (hst : RotSteps m.ke m.dv s ops s') (hk : ∀ op ∈ ops, Keeps m.ke k op)
    (h : ∃ e, aget m.ke s k = some e ∧ e.age = 0 ∧ e.val = v) : ∃ e, aget m.ke s' k = some e ∧ e.age = 0 ∧ e.val = v := by
  induction hst with
  | nil s => exact h
  | cons h1 _ ih => exact ih (fun op hop => hk op (by simp [hop])) (keeps_step ok (hk _ (by simp)) h1 h)

theorem aget_rotate (k : K) (v : V)
    (h : ∃ e, aget m.ke s k = some e ∧ e.age = 0 ∧ e.val = v) : ∃ e, aget m.ke (arotate s) k = some e ∧ e.val = v := by
  obtain ⟨e, hg, ha, hv⟩ := h
  have h1 : aget m.ke (s.filter (fun e => e.age = 0)) k = some e := by
    induction s with
    | nil => cases hg
    | cons x s ih =>
      rw [aget_cons] at hg
      by_cases hx : m.ke k x.key = true
      · rw [if_pos hx] at hg
        injection hg with hg
        subst hg
        rw [List.filter_cons_of_pos (by simp [ha]), aget_cons, if_pos hx]
      · rw [if_neg hx] at hg
        by_cases hxa : x.age = 0
        · rw [List.filter_cons_of_pos (by simp [hxa]), aget_cons, if_neg hx]; exact ih hg
        · rw [List.filter_cons_of_neg (by simp [hxa])]; exact ih hg
  refine ⟨{ e with age := 1 }, ?_, hv⟩
  unfold arotate
  rw [aget_map k (fun e => { e with age := 1 }) (fun e => rfl), h1]; rfl

/-- No entry for `k` is recent. -/
def NotRecent (ke : K → K → Bool) (k : K) (s : List (AgedEntry K V)) : Prop := ∀ e ∈ s, ke k e.key = true → e.age ≠ 0

theorem ignores_step (ok : MapOk m) {op : ROp K V} {o : MOut K V} {s' : List (AgedEntry K V)} {k : K}
    (hk : Ignores m.ke k op) (hst : RotStep m.ke m.dv s op o s') (h : NotRecent m.ke k s) : NotRecent m.ke k s' := by
  have hmap : ∀ (k' : K) (f : AgedEntry K V → AgedEntry K V), m.ke k' k = false →
      (∀ e, m.ke k' e.key = true → m.ke k' (f e).key = true) →
      NotRecent m.ke k (s.map (fun e => if m.ke k' e.key then f e else e)) := by
    intro k' f hne hf e he hke
    obtain ⟨x, hx, rfl⟩ := List.mem_map.1 he
    by_cases hx' : m.ke k' x.key = true
    · rw [if_pos hx'] at hke
      have := ok.trans _ _ _ (hf x hx') (ok.symm _ _ hke)
      rw [this] at hne; cases hne
    · rw [if_neg hx'] at hke ⊢
      exact h x hx hke
  have href : ∀ (k' : K) (e : AgedEntry K V), m.ke k' e.key = true → m.ke k' (refresh k' e).key = true := by
    intro k' e he
    unfold refresh
    split
    · exact he
    · exact ok.refl k'
  have hcons : ∀ (k' : K) (v : V), m.ke k' k = false → NotRecent m.ke k (⟨k', v, 0⟩ :: s) := by
    intro k' v hne e he hke
    rcases List.mem_cons.1 he with rfl | he
    · rw [ok.symm _ _ hke] at hne; cases hne
    · exact h e he hke
  cases op with
  | set k' w =>
    obtain ⟨_, rfl⟩ := hst
    unfold aput
    split
    · exact hmap k' _ hk (fun e he => href k' e he)
    · exact hcons k' w hk
  | index k' =>
    obtain ⟨_, rfl⟩ := hst
    split
    · exact hmap k' _ hk (fun e he => href k' e he)
    · exact hcons k' _ hk
  | lookup k' => obtain ⟨_, rfl⟩ := hst; exact hmap k' _ hk (fun e he => href k' e he)
  | exists' k' => obtain ⟨_, rfl⟩ := hst; exact hmap k' _ hk (fun e he => href k' e he)
  | existsNoPromote k' => obtain ⟨_, rfl⟩ := hst; exact h
  | existsRecent k' => obtain ⟨_, rfl⟩ := hst; exact h
  | existsOld k' => obtain ⟨_, rfl⟩ := hst; exact h
  | remove k' must =>
    obtain ⟨_, _, rfl⟩ := hst
    intro e he hke
    exact h e (List.mem_filter.1 he).1 hke
  | rotate =>
    obtain ⟨_, rfl⟩ := hst
    intro e he _
    obtain ⟨x, _, rfl⟩ := List.mem_map.1 he
    simp
  | rotateFn =>
    obtain ⟨rfl, _⟩ := hst
    intro e he _
    obtain ⟨x, _, rfl⟩ := List.mem_map.1 he
    simp
  | flushRotate => obtain ⟨_, rfl⟩ := hst; intro e he; cases he
  | flushRotateFn => obtain ⟨rfl, _⟩ := hst; intro e he; cases he
  | walk => obtain ⟨rfl, _⟩ := hst; exact h
  | size => obtain ⟨_, rfl⟩ := hst; exact h
  | sizeRecent => obtain ⟨_, rfl⟩ := hst; exact h
  | sizeOld => obtain ⟨_, rfl⟩ := hst; exact h

theorem ignores_steps (ok : MapOk m) {k : K} {ops : List (ROp K V)} {s s' : List (AgedEntry K V)}
    (hst : RotSteps m.ke m.dv s ops s') (hk : ∀ op ∈ ops, Ignores m.ke k op) (h : NotRecent m.ke k s) : NotRecent m.ke k s' := by
  induction hst with
  | nil s => exact h
  | cons h1 _ ih => exact ih (fun op hop => hk op (by simp [hop])) (ignores_step ok (hk _ (by simp)) h1 h)

theorem notRecent_rotate (k : K) : NotRecent m.ke k (arotate s) := by
  intro e he _
  obtain ⟨x, _, rfl⟩ := List.mem_map.1 he
  simp

theorem notRecent_gone {k : K} (h : NotRecent m.ke k s) : aget m.ke (arotate s) k = none := by
  unfold aget
  rw [List.find?_eq_none]
  intro e he hke
  obtain ⟨x, hx, rfl⟩ := List.mem_map.1 he
  have := List.mem_filter.1 hx
  exact h x this.1 hke (by simpa using this.2)

theorem rot_growth {ke : K → K → Bool} {dv : V} {op : ROp K V} {o : MOut K V} {s s' : List (AgedEntry K V)}
    (hst : RotStep ke dv s op o s') : s'.length ≤ s.length + 1 := by
  have hrot : (arotate s).length ≤ s.length + 1 := by
    unfold arotate
    rw [List.length_map]
    exact Nat.le_succ_of_le (List.length_filter_le _ _)
  cases op with
  | set k v => obtain ⟨_, rfl⟩ := hst; unfold aput; split <;> simp
  | index k => obtain ⟨_, rfl⟩ := hst; split <;> simp [touch]
  | lookup k => obtain ⟨_, rfl⟩ := hst; simp [touch]
  | exists' k => obtain ⟨_, rfl⟩ := hst; simp [touch]
  | existsNoPromote k => obtain ⟨_, rfl⟩ := hst; simp
  | existsRecent k => obtain ⟨_, rfl⟩ := hst; simp
  | existsOld k => obtain ⟨_, rfl⟩ := hst; simp
  | remove k must => obtain ⟨_, _, rfl⟩ := hst; exact Nat.le_succ_of_le (List.length_filter_le _ _)
  | rotate => obtain ⟨_, rfl⟩ := hst; exact hrot
  | rotateFn => obtain ⟨rfl, _⟩ := hst; exact hrot
  | flushRotate => obtain ⟨_, rfl⟩ := hst; simp
  | flushRotateFn => obtain ⟨rfl, _⟩ := hst; simp
  | walk => obtain ⟨rfl, _⟩ := hst; simp
  | size => obtain ⟨_, rfl⟩ := hst; simp
  | sizeRecent => obtain ⟨_, rfl⟩ := hst; simp
  | sizeOld => obtain ⟨_, rfl⟩ := hst; simp

/-- A successful run splits at any point into a run of the specification and the rest. -/
theorem rot_reach (ok : MapOk m) (hf : Fits m.cfg n) (rest : List (ROp K V)) : ∀ (ops : List (ROp K V)) (r : Rot K V)
    (s : List (AgedEntry K V)) (outs : List (MOut K V)), RotR m r s n → s.length + (ops.length + rest.length) ≤ n →
    rRun m r (ops ++ rest) = .ok outs →
    ∃ r' s' outs1 outs2, RotR m r' s' n ∧ s'.length + rest.length ≤ n ∧ RotSteps m.ke m.dv s ops s' ∧
      rRun m r' rest = .ok outs2 ∧ outs = outs1 ++ outs2 ∧ outs1.length = ops.length := by
  intro ops
  induction ops with
  | nil =>
    intro r s outs h hl hr
    exact ⟨r, s, [], outs, h, by simpa using hl, .nil s, by simpa using hr, rfl, rfl⟩
  | cons op ops ih =>
    intro r s outs h hl hr
    simp only [List.cons_append, rRun] at hr
    rw [Res.bind_eq_ok] at hr
    obtain ⟨q, e, hr⟩ := hr
    rw [Res.bind_eq_ok] at hr
    obtain ⟨outs', e', hr⟩ := hr
    simp only [Res.pure_eq] at hr
    injection hr with hr
    simp only [List.length_cons] at hl
    rcases rot_step ok h hf op with h1 | ⟨_, e2⟩ | ⟨t', o, s', e2, h1, h2⟩
    · exfalso
      cases op <;> simp [RotOver] at h1 <;> omega
    · rw [e2] at e; cases e
    · rw [e2] at e
      injection e with e
      subst e
      have hg := rot_growth h1
      obtain ⟨r', s'', o1, o2, g1, g2, g3, g4, g5, g6⟩ := ih t' s' outs' h2 (by omega) e'
      exact ⟨r', s'', o :: o1, o2, g1, g2, .cons h1 g3, g4, by rw [← hr, g5]; rfl, by simp [g6]⟩

/-- One more call at the end of a successful run. -/
theorem rot_one (ok : MapOk m) (hf : Fits m.cfg n) (h : RotR m r s n) {op : ROp K V} {rest : List (ROp K V)}
    (hl : s.length + (rest.length + 1) ≤ n) {outs : List (MOut K V)} (hr : rRun m r (op :: rest) = .ok outs) :
    ∃ r' s' o outs', RotR m r' s' n ∧ s'.length + rest.length ≤ n ∧ RotStep m.ke m.dv s op o s' ∧
      rRun m r' rest = .ok outs' ∧ outs = o :: outs' := by
  simp only [rRun] at hr
  rw [Res.bind_eq_ok] at hr
  obtain ⟨q, e, hr⟩ := hr
  rw [Res.bind_eq_ok] at hr
  obtain ⟨outs', e', hr⟩ := hr
  simp only [Res.pure_eq] at hr
  injection hr with hr
  rcases rot_step ok h hf op with h1 | ⟨_, e2⟩ | ⟨t', o, s', e2, h1, h2⟩
  · exfalso
    cases op <;> simp [RotOver] at h1 <;> omega
  · rw [e2] at e; cases e
  · rw [e2] at e
    injection e with e
    subst e
    have hg := rot_growth h1
    exact ⟨t', s', o, outs', h2, by omega, h1, e', hr.symm⟩

end Verif.Hash
