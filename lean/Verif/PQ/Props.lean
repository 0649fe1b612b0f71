import Verif.PQ.Lemmas3

/-! # Properties of `PriorityQueue` (C08, C09, C62, C63) -/

namespace Verif.PQ

variable {α : Type}

/-- C08, C09: a priority queue over any total preorder, with any comparator that agrees with it (ties
either way), started with room for at least one element, is a multiset handing out most important
elements, over every history. Histories that use the bottom-up pop need a comparator that says yes on
every tie. -/
theorem pq_is_priority_queue {li : α → α → Bool} {le : α → α → Prop} (hI : Importance li le) (d : α)
    (initial : Nat) (hk : 0 < initial) (ops : List (Op α))
    (hbu : Op.popBU ∈ ops → ∀ a b, le a b → li a b = true) :
    PQRun le [] ops (run li d (new d initial) ops) :=
  pq_run hI ops _ _ (QR.new hI d initial hk) hbu

/-- `std::less_equal<int>` on naturals. -/
theorem leq_importance : Importance (fun a b : Nat => decide (a ≤ b)) (· ≤ ·) :=
  ⟨Nat.le_total, fun _ _ _ => Nat.le_trans, fun _ _ h => by simpa using h, fun _ _ h => by
    simp at h; omega⟩

/-- `std::less<int>` on naturals. -/
theorem lt_importance : Importance (fun a b : Nat => decide (a < b)) (· ≤ ·) :=
  ⟨Nat.le_total, fun _ _ _ => Nat.le_trans, fun _ _ h => by simp at h; omega, fun _ _ h => by
    simpa using h⟩

/-- A record compared by key only, as in the header's usage example (smallest key first). -/
theorem key_importance : Importance (fun a b : Nat × Nat => decide (a.1 ≥ b.1)) (fun a b => a.1 ≥ b.1) :=
  ⟨fun a b => Nat.le_total _ _, fun _ _ _ h1 h2 => Nat.le_trans h2 h1, fun _ _ h => by simpa using h,
    fun _ _ h => by simp at h; omega⟩

example : run (fun a b : Nat => decide (a ≤ b)) 0 (new 0 1)
    [.push 3, .push 9, .push 4, .push 9, .pop, .replaceTop 1, .popBU, .top, .size] =
    .ok [.unit, .unit, .unit, .unit, .val 9, .val 9, .val 4, .val 3, .nat 2] := by decide

/-- C08: a history within the interface goes through with one answer per call. -/
theorem pq_total {li : α → α → Bool} {le : α → α → Prop} (hI : Importance li le) (d : α)
    (initial : Nat) (hk : 0 < initial) (ops : List (Op α)) (hs : Sane 0 ops)
    (hbu : Op.popBU ∈ ops → ∀ a b, le a b → li a b = true) :
    ∃ outs, run li d (new d initial) ops = .ok outs ∧ outs.length = ops.length :=
  (sane_after hI ops _ [] (QR.new hI d initial hk) hs hbu).1

example : Sane 0 ([.push 3, .push 9, .pop, .replaceTop 1, .popBU, .reserve 5] : List (Op Nat)) := by
  simp [Sane]

/-- C08: pushing any elements and popping them all, with any mix of the two pops, returns exactly those
elements, most important first. -/
theorem pq_sorts {li : α → α → Bool} {le : α → α → Prop} (hI : Importance li le) (d : α)
    (initial : Nat) (hk : 0 < initial) (xs : List α) (hxs : xs.length < 2147483648) (pops : List (Op α))
    (hlen : pops.length = xs.length) (hpops : ∀ o ∈ pops, o = .pop ∨ o = .popBU)
    (hbu : Op.popBU ∈ pops → ∀ a b, le a b → li a b = true) :
    ∃ ys : List α, run li d (new d initial) (xs.map Op.push ++ pops) =
        .ok (List.replicate xs.length Out.unit ++ ys.map Out.val) ∧
      ys.Perm xs ∧ ys.Pairwise (fun a b => le b a) := by
  have h := pq_is_priority_queue hI d initial hk (xs.map Op.push ++ pops) (fun hm => hbu (by
    rcases List.mem_append.1 hm with h | h
    · obtain ⟨_, _, h⟩ := List.mem_map.1 h; cases h
    · exact h))
  obtain ⟨s', r', hp, hr, he⟩ := pushes_run pops xs [] _ (by simpa using hxs) h
  obtain ⟨ys, h1, h2, h3⟩ := pops_run pops s'.length s' r' rfl (by rw [hlen, hp.length_eq]; simp) hpops hr
  exact ⟨ys, by rw [he, h1]; rfl, h2.trans (by simpa using hp), h3⟩

example : run (fun a b : Nat => decide (a < b)) 0 (new 0 1)
    ([5, 2, 8, 2].map Op.push ++ [.pop, .pop, .pop, .pop]) =
    .ok [.unit, .unit, .unit, .unit, .val 8, .val 5, .val 2, .val 2] := by decide

/-- C09: on any queue reached by a history within the interface, the two pops hand out an equally
important element and leave the same multiset up to that element. -/
theorem pops_interchangeable {li : α → α → Bool} {le : α → α → Prop} (hI : Importance li le)
    (hx : ∀ a b, le a b → li a b = true) (d : α) (initial : Nat) (hk : 0 < initial) (ops : List (Op α))
    (hs : Sane 0 ops) (q : Q α) (hq : after li d (new d initial) ops = .ok q) (hne : 0 < q.size) :
    ∃ x q1 q2, step li d q .pop = .ok (q1, .val x) ∧ step li d q .popBU = .ok (q2, .val x) ∧
      (q1.pq.take q1.size).Perm (q2.pq.take q2.size) ∧
      (q.pq.take q.size).Perm (x :: q1.pq.take q1.size) ∧ Best le x (q1.pq.take q1.size) := by
  obtain ⟨_, q', s, h1, h2⟩ := sane_after hI ops _ [] (QR.new hI d initial hk) hs (fun _ => hx)
  rw [hq] at h1
  cases h1
  have htop : top q = .ok (g d q.pq 0) := rd_eq d _ _ h2.pos
  obtain ⟨q1, s1, e1, r1, p1⟩ := pop_ok hI h2 (by omega)
  obtain ⟨q2, s2, e2, r2, p2⟩ := popBU_ok hI hx h2 (by omega)
  refine ⟨g d q.pq 0, q1, q2, by simp only [step, htop, e1, Res.bind_ok, Res.pure_eq],
    by simp only [step, htop, e2, Res.bind_ok, Res.pure_eq], ?_, ?_, ?_⟩
  · exact r1.perm.symm.trans (((p1.symm.trans p2).cons_inv).trans r2.perm)
  · exact h2.perm.symm.trans (p1.trans (List.Perm.cons _ r1.perm))
  · intro y hy
    exact h2.best hI y (p1.symm.subset (List.mem_cons_of_mem _ (r1.perm.symm.subset hy)))

/-- C09: `replaceTop v` and `pop` followed by `push v` leave the same multiset. -/
theorem replaceTop_is_pop_push {li : α → α → Bool} {le : α → α → Prop} (hI : Importance li le)
    (d : α) (initial : Nat) (hk : 0 < initial) (ops : List (Op α)) (hnb : Op.popBU ∉ ops)
    (hs : Sane 0 ops) (q : Q α) (hq : after li d (new d initial) ops = .ok q) (hne : 0 < q.size)
    (hsz : q.size ≤ 2147483648) (v : α) :
    ∃ q1 q2 q3, replaceTop li q v = .ok q1 ∧ pop li q = .ok q2 ∧ push li d q2 v = .ok q3 ∧
      (q1.pq.take q1.size).Perm (q3.pq.take q3.size) ∧ q1.size = q3.size := by
  obtain ⟨_, q', s, h1, h2⟩ := sane_after hI ops _ [] (QR.new hI d initial hk) hs (fun h => (hnb h).elim)
  rw [hq] at h1
  cases h1
  obtain ⟨q1, s1, e1, r1, p1⟩ := replaceTop_ok hI h2 v (by omega)
  obtain ⟨q2, s2, e2, r2, p2⟩ := pop_ok hI h2 (by omega)
  have l2 : q2.size + 1 = q.size := by
    have a := r2.length; have b := p2.length_eq; have c := h2.length
    simp only [List.length_cons] at b
    omega
  obtain ⟨q3, s3, e3, r3, p3⟩ := push_ok hI r2 v (by omega)
  have hp := h2.pop_perm hI (by omega)
  have hss : s1.Perm s3 :=
    p1.trans ((List.Perm.cons v (hp.symm.trans p2).cons_inv).trans p3.symm)
  refine ⟨q1, q2, q3, e1, e2, e3, r1.perm.symm.trans (hss.trans r3.perm), ?_⟩
  rw [← r1.length, ← r3.length, hss.length_eq]

example : ∃ q, after (fun a b : Nat => decide (a ≤ b)) 0 (new 0 1) [.push 3, .push 9, .push 4] = .ok q ∧
    0 < q.size ∧ replaceTop (fun a b : Nat => decide (a ≤ b)) q 1 = .ok ⟨[4, 3, 1, 0], 3⟩ :=
  ⟨⟨[9, 3, 4, 0], 3⟩, by decide, by decide, by decide⟩

/-- C62 (false as stated): `selfVerify` aborts on a correct queue holding two equal elements under the
default comparator `std::less_equal`. -/
theorem selfVerify_rejects_ties :
    ∃ q, after (fun a b : Nat => decide (a ≤ b)) 0 (new 0 4) [.push 7, .push 7] = .ok q ∧
      selfVerify (fun a b : Nat => decide (a ≤ b)) q = .abort :=
  ⟨⟨[7, 7, 0, 0], 2⟩, by decide, by decide⟩

/-- C62, the part that holds: with a strict comparator `selfVerify` passes after every history.
Missing: comparators that say yes on ties, for which it is false. -/
theorem selfVerify_partial {li : α → α → Bool} {le : α → α → Prop} (hI : Importance li le)
    (hstrict : ∀ a b, le b a → li a b = false) (d : α) (initial : Nat) (hk : 0 < initial)
    (ops : List (Op α)) (hnb : Op.popBU ∉ ops) (hs : Sane 0 ops) :
    ∃ q, after li d (new d initial) ops = .ok q ∧ selfVerify li q = .ok () := by
  obtain ⟨_, q, s, h1, h2⟩ := sane_after hI ops _ [] (QR.new hI d initial hk) hs (fun h => (hnb h).elim)
  exact ⟨q, h1, selfVerifyLoop_ok hstrict h2 _ _⟩

theorem selfVerifyLoop_exact (li : α → α → Bool) (d : α) (q : Q α) (hl : q.size ≤ q.pq.length) : ∀ fuel i, q.size < fuel + i →
    ((∀ k, 2 * i < k → k < q.size → li (g d q.pq ((k - 1) / 2)) (g d q.pq k) = false) → selfVerifyLoop li q fuel i = .ok ()) ∧
    ((∃ k, 2 * i < k ∧ k < q.size ∧ li (g d q.pq ((k - 1) / 2)) (g d q.pq k) = true) → selfVerifyLoop li q fuel i = .abort)
  | 0, i, hf => ⟨fun _ => rfl, fun ⟨k, h1, h2, _⟩ => by omega⟩
  | fuel + 1, i, hf => by
    unfold selfVerifyLoop
    split
    · split
      · exact ⟨fun _ => rfl, fun ⟨k, h1, h2, _⟩ => by omega⟩
      · rw [rd_eq d _ _ (by omega), Res.bind_ok, rd_eq d _ _ (by omega), Res.bind_ok]
        cases h1 : li (g d q.pq i) (g d q.pq (2 * i + 1)) with
        | true => exact ⟨fun h => absurd (h (2 * i + 1) (by omega) (by omega)) (by rw [show (2 * i + 1 - 1) / 2 = i by omega, h1]; decide), fun _ => rfl⟩
        | false =>
          simp only [Bool.not_false, Res.require_true, Res.bind_ok]
          split
          · refine ⟨fun _ => rfl, fun ⟨k, h2, h3, h4⟩ => ?_⟩
            obtain rfl : k = 2 * i + 1 := by omega
            rw [show (2 * i + 1 - 1) / 2 = i by omega, h1] at h4
            cases h4
          · rw [rd_eq d _ _ (by omega), Res.bind_ok]
            cases h5 : li (g d q.pq i) (g d q.pq (2 * i + 2)) with
            | true => exact ⟨fun h => absurd (h (2 * i + 2) (by omega) (by omega)) (by rw [show (2 * i + 2 - 1) / 2 = i by omega, h5]; decide), fun _ => rfl⟩
            | false =>
              simp only [Bool.not_false, Res.require_true, Res.bind_ok]
              have ih := selfVerifyLoop_exact li d q hl fuel (i + 1) (by omega)
              refine ⟨fun h => ih.1 fun k h2 h3 => h k (by omega) h3, fun ⟨k, h2, h3, h4⟩ => ih.2 ⟨k, ?_, h3, h4⟩⟩
              have n1 : k ≠ 2 * i + 1 := by
                rintro rfl
                rw [show (2 * i + 1 - 1) / 2 = i by omega, h1] at h4
                cases h4
              have n2 : k ≠ 2 * i + 2 := by
                rintro rfl
                rw [show (2 * i + 2 - 1) / 2 = i by omega, h5] at h4
                cases h4
              omega
    · exact ⟨fun _ => rfl, fun ⟨k, h1, h2, _⟩ => by omega⟩

/-- C62, the other direction: whatever was written through `PQ_Begin()`, `selfVerify` returns exactly if no element is less important than one below it, and stops the process otherwise. -/
theorem selfVerify_exact (li : α → α → Bool) (q : Q α) (hl : q.size ≤ q.pq.length) :
    (selfVerify li q = .ok () ∨ selfVerify li q = .abort) ∧
    (selfVerify li q = .ok () ↔ ∀ k a b, 0 < k → k < q.size → q.pq[(k - 1) / 2]? = some a → q.pq[k]? = some b → li a b = false) := by
  cases hq : q.pq with
  | nil =>
    have h0 : q.size = 0 := by rw [hq] at hl; simpa using hl
    have e : selfVerify li q = .ok () := by unfold selfVerify selfVerifyLoop; rw [h0]; rfl
    exact ⟨Or.inl e, fun _ k a b _ h => by omega, fun _ => e⟩
  | cons d rest =>
    have h := selfVerifyLoop_exact li d q hl (q.size + 1) 0 (by omega)
    rw [← hq]
    have hget : ∀ i, i < q.size → q.pq[i]? = some (g d q.pq i) := by
      intro i hi
      show _ = some (q.pq[i]?.getD d)
      rw [List.getElem?_eq_getElem (by omega)]; rfl
    by_cases hk : ∃ k, 2 * 0 < k ∧ k < q.size ∧ li (g d q.pq ((k - 1) / 2)) (g d q.pq k) = true
    · have e : selfVerify li q = .abort := h.2 hk
      obtain ⟨k, h1, h2, h3⟩ := hk
      refine ⟨Or.inr e, fun h' => (by rw [e] at h'; cases h'), fun h' => ?_⟩
      have := h' k _ _ (by omega) h2 (hget _ (by omega)) (hget _ h2)
      rw [h3] at this; cases this
    · have hall : ∀ k, 2 * 0 < k → k < q.size → li (g d q.pq ((k - 1) / 2)) (g d q.pq k) = false := by
        intro k h1 h2
        cases hc : li (g d q.pq ((k - 1) / 2)) (g d q.pq k) with
        | false => rfl
        | true => exact absurd ⟨k, h1, h2, hc⟩ hk
      have e : selfVerify li q = .ok () := h.1 hall
      refine ⟨Or.inl e, fun _ k a b h1 h2 ha hb => ?_, fun _ => e⟩
      rw [hget _ (by omega)] at ha
      rw [hget _ h2] at hb
      cases ha; cases hb
      exact hall k (by omega) h2

/-- A disorder at the very end is found. -/
example : selfVerify (fun a b : Nat => decide (a < b)) ⟨[9, 8, 7, 6, 5, 4, 8], 7⟩ = .abort ∧ selfVerify (fun a b : Nat => decide (a < b)) ⟨[9, 8, 7, 6, 5, 4, 8], 6⟩ = .ok () := by decide

/-- The bottom-up pop stops the process under a strict comparator as soon as two elements are held. -/
theorem popBU_needs_reflexive :
    run (fun a b : Nat => decide (a < b)) 0 (new 0 4) [.push 7, .push 8, .popBU] = .abort := by decide

/-- The bottom-up pop reads far outside the array when the comparator is reflexive but says no on
another tie (here: equal keys, different data). -/
theorem popBU_needs_ties :
    run (fun a b : Nat × Nat => decide (a = b) || decide (a.1 < b.1)) (0, 0) (new (0, 0) 8)
      [.push (7, 0), .push (7, 1), .push (7, 2), .push (7, 3), .popBU] = .ub := by decide

/-- C63 (false as stated): the default constructor takes room for `1024/sizeof(T)` elements, which is
none when an element is larger than 1024 bytes; the first push then writes outside the array. -/
theorem default_room_zero_overflows (li : α → α → Bool) (d v : α) (sizeofT : Nat) (h : 1024 < sizeofT) :
    push li d (new d (1024 / sizeofT)) v = .ub := by
  rw [Nat.div_eq_of_lt h]
  rfl

/-- C63, the part that holds: elements of at most 1024 bytes. -/
theorem default_room_partial {li : α → α → Bool} {le : α → α → Prop} (hI : Importance li le) (d v : α)
    (sizeofT : Nat) (h0 : 0 < sizeofT) (h : sizeofT ≤ 1024) :
    ∃ q, push li d (new d (1024 / sizeofT)) v = .ok q ∧ q.size = 1 ∧ top q = .ok v := by
  have hk : 0 < 1024 / sizeofT := Nat.div_pos h h0
  obtain ⟨q', s', e, r, p⟩ := push_ok hI (QR.new hI d _ hk) v (by simp [new])
  have hs : q'.size = 1 := by rw [← r.length, p.length_eq]; rfl
  refine ⟨q', e, hs, ?_⟩
  have hm := mem_take_g d q'.pq q'.size r.size v ((p.symm.trans r.perm).subset List.mem_cons_self)
  obtain ⟨i, hi, rfl⟩ := hm
  have : i = 0 := by omega
  subst this
  exact rd_eq d _ _ r.pos

/-- C64 (false as stated): `q.replaceTop(q.top())` with a tied runner-up loses an element: the argument
is a reference into the array and changes under the loop. -/
theorem replaceTop_own_top_loses :
    ∃ q q', after (fun a b : Nat × Nat => decide (a.1 ≤ b.1)) (0, 0) (new (0, 0) 4)
        [.push (7, 1), .push (7, 2)] = .ok q ∧
      replaceTopAlias (fun a b : Nat × Nat => decide (a.1 ≤ b.1)) q = .ok q' ∧
      q.pq.take q.size = [(7, 1), (7, 2)] ∧ q'.pq.take q'.size = [(7, 2), (7, 2)] :=
  ⟨⟨[(7, 1), (7, 2), (0, 0), (0, 0)], 2⟩, ⟨[(7, 2), (7, 2), (0, 0), (0, 0)], 2⟩, by decide, by decide, rfl, rfl⟩

/-- C64: `q.push(q.top())` on a full array reads the freed element. -/
theorem push_own_top_dangles : ∃ q : Q Nat,
    after (fun a b : Nat => decide (a ≤ b)) 0 (new 0 2) [.push 3, .push 9] = .ok q ∧
      pushAlias (fun a b : Nat => decide (a ≤ b)) 0 q = .ub :=
  ⟨⟨[9, 3], 2⟩, by decide, rfl⟩

/-- C64, the part that holds: under a strict comparator `q.replaceTop(q.top())` changes nothing, after
every history. Missing: comparators that say yes on ties. -/
theorem replaceTop_own_top_partial {li : α → α → Bool} {le : α → α → Prop} (hI : Importance li le)
    (hstrict : ∀ a b, le b a → li a b = false) (d : α) (initial : Nat) (hk : 0 < initial)
    (ops : List (Op α)) (hnb : Op.popBU ∉ ops) (hs : Sane 0 ops) (q : Q α)
    (hq : after li d (new d initial) ops = .ok q) : replaceTopAlias li q = .ok q := by
  obtain ⟨_, q', s, h1, h2⟩ := sane_after hI ops _ [] (QR.new hI d initial hk) hs (fun h => (hnb h).elim)
  rw [hq] at h1
  cases h1
  have hloop : rtLoopAlias li q.size (q.size + 1) q.pq 0 = .ok (q.pq, 0) := by
    unfold rtLoopAlias
    split
    · rfl
    · have hsz := h2.size
      obtain ⟨c, hc, hcn, hc0, hpc, _⟩ := pickRT_ok hI d q.pq q.size 0 h2.size (by omega)
      rw [hc, Res.bind_ok, rd_eq d _ _ (by omega), Res.bind_ok, rd_eq d _ _ h2.pos, Res.bind_ok,
        hstrict _ _ (h2.heap.top hI.total hI.trans c hcn)]
      rfl
  simp only [replaceTopAlias, hloop, Res.bind_ok, rd_eq d _ _ h2.pos, wr_eq _ _ _ h2.pos, Res.pure_eq,
    set_g_self d _ _ h2.pos]

end Verif.PQ
