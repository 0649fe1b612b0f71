import Verif.PQ.Lemmas2

namespace Verif.PQ

variable {α : Type}

theorem pushes_run {le : α → α → Prop} (rest : List (Op α)) : ∀ (xs s : List α) (r : Res (List (Out α))),
    xs.length + s.length < 2147483648 → PQRun le s (xs.map Op.push ++ rest) r →
    ∃ s' r', s'.Perm (xs ++ s) ∧ PQRun le s' rest r' ∧
      r = r'.map (List.replicate xs.length Out.unit ++ ·)
  | [], s, r, _, h => ⟨s, r, List.Perm.refl _, h, by cases r <;> rfl⟩
  | x :: xs, s, r, hl, h => by
    simp only [List.length_cons] at hl
    rcases h with h | h | ⟨o, s1, r1, ⟨ho, hp⟩, hr, he⟩
    · simp only [PQMisuse] at h; omega
    · exact h.1.elim
    · obtain ⟨s', r', h1, h2, h3⟩ := pushes_run rest xs s1 r1 (by rw [hp.length_eq]; simp only [List.length_cons]; omega) hr
      refine ⟨s', r', ?_, h2, ?_⟩
      · exact h1.trans ((List.Perm.append_left xs hp).trans List.perm_middle)
      · rw [he, h3, ho]
        cases r' <;> simp [List.replicate_succ]

theorem pops_run {le : α → α → Prop} (pops : List (Op α)) : ∀ (n : Nat) (s : List α) (r : Res (List (Out α))),
    s.length = n → pops.length = n → (∀ o ∈ pops, o = .pop ∨ o = .popBU) → PQRun le s pops r →
    ∃ ys : List α, r = .ok (ys.map Out.val) ∧ ys.Perm s ∧ ys.Pairwise (fun a b => le b a) := by
  intro n
  induction n generalizing pops with
  | zero =>
    intro s r hs hp _ h
    rw [List.length_eq_zero_iff.1 hp] at h
    exact ⟨[], h, by rw [List.length_eq_zero_iff.1 hs], List.Pairwise.nil⟩
  | succ n ih =>
    intro s r hs hp hall h
    cases pops with
    | nil => simp at hp
    | cons op pops =>
      have hstep : ∀ o s1, PQStep le s op o s1 → ∃ x, o = .val x ∧ s.Perm (x :: s1) ∧ Best le x s1 := by
        intro o s1 h
        rcases hall op List.mem_cons_self with rfl | rfl <;> exact h
      rcases h with h | h | ⟨o, s1, r1, ho, hr, he⟩
      · exfalso
        have : s = [] := by rcases hall op List.mem_cons_self with rfl | rfl <;> exact h
        rw [this] at hs; simp at hs
      · exfalso
        rcases hall op List.mem_cons_self with rfl | rfl <;> exact h.1
      · obtain ⟨x, rfl, hperm, hbest⟩ := hstep o s1 ho
        have hl1 : s1.length = n := by
          have := hperm.length_eq
          simp only [List.length_cons] at this
          omega
        obtain ⟨ys, h1, h2, h3⟩ := ih pops s1 r1 hl1 (by simpa using hp)
          (fun o ho => hall o (List.mem_cons_of_mem _ ho)) hr
        refine ⟨x :: ys, ?_, ?_, ?_⟩
        · rw [he, h1]; simp
        · exact (List.Perm.cons x h2).trans hperm.symm
        · exact List.pairwise_cons.2 ⟨fun y hy => hbest y (h2.subset hy), h3⟩

theorem pqrun_no_ub {le : α → α → Prop} : ∀ (ops : List (Op α)) (s : List α) (r : Res (List (Out α))),
    PQRun le s ops r → r = .ub →
    ∃ pre op post, ops = pre ++ op :: post ∧ ∃ s', PQMisuse s' op
  | [], s, r, h, hu => by
    have : r = .ok [] := h
    rw [this] at hu; cases hu
  | op :: ops, s, r, h, hu => by
    rcases h with h | h | ⟨o, s1, r1, ho, hr, he⟩
    · exact ⟨[], op, ops, rfl, s, h⟩
    · rw [h.2] at hu; cases hu
    · have : r1 = .ub := by cases r1 <;> simp_all
      obtain ⟨pre, op', post, e, hm⟩ := pqrun_no_ub ops s1 r1 hr this
      exact ⟨op :: pre, op', post, by rw [e]; rfl, hm⟩

theorem selfVerifyLoop_ok {li : α → α → Bool} {le : α → α → Prop} (hs : ∀ a b, le b a → li a b = false)
    {d : α} {q : Q α} {s : List α} (h : QR le d q s) :
    ∀ fuel i, selfVerifyLoop li q fuel i = .ok ()
  | 0, _ => rfl
  | fuel + 1, i => by
    have hsz := h.size
    unfold selfVerifyLoop
    split
    · split
      · rfl
      · have hl := h.heap (2 * i + 1) (by omega) (by omega)
        rw [show (2 * i + 1 - 1) / 2 = i by omega] at hl
        rw [rd_eq d _ _ (by omega), Res.bind_ok, rd_eq d _ _ (by omega), Res.bind_ok, hs _ _ hl]
        simp only [Bool.not_false, Res.require_true, Res.bind_ok]
        split
        · rfl
        · have hr := h.heap (2 * i + 2) (by omega) (by omega)
          rw [show (2 * i + 2 - 1) / 2 = i by omega] at hr
          rw [rd_eq d _ _ (by omega), Res.bind_ok, hs _ _ hr]
          simp only [Bool.not_false, Res.require_true, Res.bind_ok]
          exact selfVerifyLoop_ok hs h fuel (i + 1)
    · rfl

/-- The queue after a history that went through. -/
def after (li : α → α → Bool) (d : α) : Q α → List (Op α) → Res (Q α)
  | q, [] => .ok q
  | q, op :: ops => do
    let r ← step li d q op
    after li d r.1 ops

/-- Nothing the interface forbids happens along the history, from contents of size `n`. -/
def Sane : Nat → List (Op α) → Prop
  | _, [] => True
  | n, .push _ :: ops => n < 2147483648 ∧ Sane (n + 1) ops
  | n, .pop :: ops => 0 < n ∧ Sane (n - 1) ops
  | n, .popBU :: ops => 0 < n ∧ Sane (n - 1) ops
  | n, .replaceTop _ :: ops => 0 < n ∧ Sane n ops
  | n, .top :: ops => 0 < n ∧ Sane n ops
  | n, .size :: ops => Sane n ops
  | _, .clear :: ops => Sane 0 ops
  | n, .reserve _ :: ops => n = 0 ∧ Sane n ops

theorem sane_cons {le : α → α → Prop} {s : List α} {op : Op α} {ops : List (Op α)} (h : Sane s.length (op :: ops)) :
    ¬PQMisuse s op ∧ ¬PQAborts s op ∧ ∀ o s', PQStep le s op o s' → Sane s'.length ops := by
  have hne : 0 < s.length → s ≠ [] := fun h e => by rw [e] at h; simp at h
  cases op with
  | push v =>
    refine ⟨fun hm => ?_, id, fun o s' hst => ?_⟩
    · have := h.1; simp only [PQMisuse] at hm; omega
    · rw [hst.2.length_eq]; exact h.2
  | pop =>
    refine ⟨hne h.1, id, fun o s' hst => ?_⟩
    obtain ⟨x, _, hp, _⟩ := hst
    have h2 := h.2
    rwa [hp.length_eq] at h2
  | popBU =>
    refine ⟨hne h.1, id, fun o s' hst => ?_⟩
    obtain ⟨x, _, hp, _⟩ := hst
    have h2 := h.2
    rwa [hp.length_eq] at h2
  | replaceTop v =>
    refine ⟨hne h.1, id, fun o s' hst => ?_⟩
    obtain ⟨x, r, _, hp, _, hp'⟩ := hst
    have h2 := h.2
    rw [hp.length_eq] at h2
    rw [hp'.length_eq]; exact h2
  | top => exact ⟨hne h.1, id, fun o s' hst => by rw [hst.1]; exact h.2⟩
  | size => exact ⟨id, id, fun o s' hst => by rw [hst.2]; exact h⟩
  | clear => exact ⟨id, id, fun o s' hst => by rw [hst.2]; exact h⟩
  | reserve amt =>
    exact ⟨id, fun hm => hm (List.length_eq_zero_iff.1 h.1), fun o s' hst => by rw [hst.2.2]; exact h.2⟩

theorem sane_after {li : α → α → Bool} {le : α → α → Prop} (hI : Importance li le) {d : α} :
    ∀ (ops : List (Op α)) (q : Q α) (s : List α), QR le d q s → Sane s.length ops →
    (Op.popBU ∈ ops → ∀ a b, le a b → li a b = true) →
    (∃ outs, run li d q ops = .ok outs ∧ outs.length = ops.length) ∧ ∃ q' s', after li d q ops = .ok q' ∧ QR le d q' s'
  | [], q, s, h, _, _ => ⟨⟨[], rfl, rfl⟩, q, s, rfl, h⟩
  | op :: ops, q, s, h, hs, hbu => by
    obtain ⟨n1, n2, n3⟩ := sane_cons (le := le) hs
    rcases pq_step hI h op (fun e => hbu (e ▸ List.mem_cons_self)) with hm | ⟨ha, hr⟩ | ⟨q', o, s', he, hst, hq'⟩
    · exact (n1 hm).elim
    · exact (n2 ha).elim
    · obtain ⟨⟨outs, h1, h1'⟩, q2, s2, h2, h3⟩ := sane_after hI ops q' s' hq' (n3 o s' hst)
        (fun hm => hbu (List.mem_cons_of_mem _ hm))
      refine ⟨⟨o :: outs, by simp only [run, he, Res.bind_ok, h1, Res.pure_eq], by simp [h1']⟩, q2, s2, ?_, h3⟩
      simp only [after, he, Res.bind_ok, h2]

end Verif.PQ
