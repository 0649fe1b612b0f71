import Verif.PQ.Lemmas

namespace Verif.PQ

variable {α : Type}

/-- `set` at a position and append: the two values trade places. -/
theorem set_append_perm (l : List α) (i : Nat) (a b : α) (h : i < l.length) :
    (l.set i a ++ [b]).Perm (a :: l.set i b) := by
  rw [List.set_eq_take_append_cons_drop, List.set_eq_take_append_cons_drop, if_pos h, if_pos h]
  have h1 : ((l.take i ++ a :: l.drop (i + 1)) ++ [b]).Perm (a :: (l.take i ++ l.drop (i + 1) ++ [b])) := by
    refine (List.Perm.append_right [b] (List.perm_middle)).trans ?_
    exact List.Perm.refl _
  refine h1.trans (List.Perm.cons a ?_)
  refine (List.perm_append_singleton b _).trans ?_
  exact List.perm_middle.symm

theorem take_succ_g (d : α) (l : List α) (n : Nat) (h : n < l.length) :
    l.take (n + 1) = l.take n ++ [g d l n] := by
  rw [List.take_add_one, List.getElem?_eq_getElem h]
  simp only [g, List.getD_eq_getElem?_getD, List.getElem?_eq_getElem h, Option.toList, Option.getD]

theorem set_g_self (d : α) (l : List α) (n : Nat) (h : n < l.length) : l.set n (g d l n) = l := by
  simp only [g, List.getD_eq_getElem?_getD, List.getElem?_eq_getElem h, Option.getD]
  exact List.set_getElem_self h

theorem mem_take_g (d : α) (l : List α) (n : Nat) (hn : n ≤ l.length) (y : α) (hy : y ∈ l.take n) :
    ∃ i, i < n ∧ y = g d l i := by
  obtain ⟨i, hi, rfl⟩ := List.getElem_of_mem hy
  refine ⟨i, by simp at hi; omega, ?_⟩
  simp only [List.length_take] at hi
  simp only [g, List.getD_eq_getElem?_getD, List.getElem_take]
  rw [List.getElem?_eq_getElem (by omega)]; rfl

structure QR (le : α → α → Prop) (d : α) (q : Q α) (s : List α) : Prop where
  pos : 0 < q.pq.length
  size : q.size ≤ q.pq.length
  heap : Heap le q.size (g d q.pq)
  perm : s.Perm (q.pq.take q.size)

theorem QR.length {le : α → α → Prop} {d : α} {q : Q α} {s : List α} (h : QR le d q s) :
    s.length = q.size := by
  rw [h.perm.length_eq, List.length_take]; have := h.size; omega

section
variable {li : α → α → Bool} {le : α → α → Prop} (hI : Importance li le)
include hI

theorem QR.best {d : α} {q : Q α} {s : List α} (h : QR le d q s) (y : α) (hy : y ∈ s) :
    le y (g d q.pq 0) := by
  obtain ⟨i, hi, rfl⟩ := mem_take_g d _ _ h.size y (h.perm.subset hy)
  exact h.heap.top hI.total hI.trans i hi

theorem QR.pop_perm {d : α} {q : Q α} {s : List α} (h : QR le d q s) (hs : q.size ≠ 0) :
    s.Perm (g d q.pq 0 :: (q.pq.take q.size).drop 1) := by
  refine h.perm.trans (List.Perm.of_eq ?_)
  have hp := h.pos
  cases hq : q.pq with
  | nil => rw [hq] at hp; simp at hp
  | cons a t =>
    obtain ⟨n, hn⟩ : ∃ n, q.size = n + 1 := ⟨q.size - 1, by omega⟩
    rw [hn]; simp [g]

/-- One element fewer, the top gone. -/
theorem QR.shrink {d : α} {q : Q α} {s : List α} (h : QR le d q s) (l' : List α) (n : Nat) (v : α)
    (hn : q.size = n + 1) (hl : l'.length = q.pq.length) (hv : v = g d q.pq n)
    (hp : (l'.take n).Perm ((q.pq.take n).set 0 v)) (hn0 : 0 < n) :
    s.Perm (g d q.pq 0 :: l'.take n) := by
  refine h.perm.trans ?_
  rw [hn, take_succ_g d _ _ (by have := h.size; omega)]
  have h0 : q.pq.take n = (q.pq.take n).set 0 (g d q.pq 0) := by
    rw [← take_set', set_g_self d _ _ h.pos]
  rw [h0, ← hv]
  refine (set_append_perm _ _ _ _ (by rw [List.length_take]; have := h.size; omega)).trans ?_
  exact List.Perm.cons _ hp.symm

theorem pop_ok {d : α} {q : Q α} {s : List α} (h : QR le d q s) (hs : q.size ≠ 0) :
    ∃ q' s', pop li q = .ok q' ∧ QR le d q' s' ∧ s.Perm (g d q.pq 0 :: s') := by
  have hsz := h.size
  have hpos := h.pos
  unfold pop
  rw [if_neg hs]
  simp only []
  split
  · rename_i hn0
    have hh : Heap le (q.size - 1) (g d q.pq) := fun i a b => h.heap i a (by omega)
    obtain ⟨l', cur', he, a1, a2, a3, a4, a5⟩ :=
      popLoop_ok hI d (q.size - 1) (g d q.pq (q.size - 1)) (q.size - 1 + 1) q.pq 0 (by omega) hn0 (by omega) rfl
        (fun i a b _ _ => hh i a b) (fun h => by omega) (fun h => by omega)
    rw [he, Res.bind_ok]
    dsimp only
    rw [rd_eq d l' _ (by omega), Res.bind_ok, a3 _ (Nat.le_refl _), wr_eq _ _ _ (by omega), Res.bind_ok]
    refine ⟨_, (l'.set cur' (g d q.pq (q.size - 1))).take (q.size - 1), rfl,
      ⟨by simp; omega, by simp; omega, a5, List.Perm.refl _⟩, ?_⟩
    exact h.shrink hI _ (q.size - 1) (g d q.pq (q.size - 1)) (by omega) (by simpa using a2) rfl
      (by rw [take_set' q.pq] at a4; exact a4) hn0
  · rename_i hn0
    have e : q.size = 1 := by omega
    refine ⟨_, [], rfl, ⟨hpos, by dsimp only; omega, fun i a b => by simp only at b; omega, ?_⟩, ?_⟩
    · simp [e]
    · have := h.pop_perm hI hs
      rw [e] at this
      simpa [List.drop_take] using this

theorem popBU_ok (hx : ∀ a b, le a b → li a b = true) {d : α} {q : Q α} {s : List α} (h : QR le d q s)
    (hs : q.size ≠ 0) :
    ∃ q' s', popBU li q = .ok q' ∧ QR le d q' s' ∧ s.Perm (g d q.pq 0 :: s') := by
  have hsz := h.size
  have hpos := h.pos
  obtain ⟨n, hn⟩ : ∃ n, q.size = n + 1 := ⟨q.size - 1, by omega⟩
  unfold popBU
  rw [if_neg hs]
  obtain ⟨l', cur', he, a1, a2, a3, a4, a5, a6⟩ :=
    buDown_ok hI d q.size (g d q.pq 0) (q.size + 1) q.pq 0 hsz (by omega) (by omega)
      (fun i a b _ _ => h.heap i a b) (fun h => by omega) (fun h => by omega)
  rw [he, Res.bind_ok]
  dsimp only
  rw [hn] at a1 a2 a4 a5 ⊢
  rw [show n + 1 - 1 = n from rfl]
  rw [set_g_self d _ _ hpos] at a4
  have hperm0 : s.Perm ((l'.set cur' (g d q.pq 0)).take (n + 1)) := by
    refine h.perm.trans ?_
    rw [hn]; exact a4.symm
  by_cases hcn : cur' = n
  · -- the hole is the last slot itself
    subst hcn
    have hmid : (if cur' > 0 then do
          let back ← rd l' cur'
          Res.require (li back back)
          buUp li cur' (cur' + 1 + 1) l' cur'
        else pure (l', cur')) = Res.ok (l', cur') := by
      split
      · rename_i hc0
        rw [rd_eq d l' _ (by omega), Res.bind_ok, hx _ _ (Importance.refl hI _), Res.require_true,
          Res.bind_ok]
        unfold buUp
        rw [if_neg (by omega)]
        simp only []
        rw [rd_eq d l' _ (by omega), Res.bind_ok, rd_eq d l' _ (by omega), Res.bind_ok, a6 hc0,
          hx _ _ (Importance.refl hI _)]
        rfl
      · rfl
    rw [hmid, Res.bind_ok]
    dsimp only
    rw [rd_eq d l' _ (by omega), Res.bind_ok, wr_eq _ _ _ (by omega), Res.bind_ok]
    refine ⟨_, (l'.set cur' (g d l' cur')).take cur', rfl,
      ⟨by simp; omega, by simp; omega, ?_, List.Perm.refl _⟩, ?_⟩
    · rw [set_g_self d _ _ (by omega)]
      intro i hi0 hin
      simp only at hin
      exact a5 i hi0 (by omega) (by omega) (by omega)
    · rw [set_g_self d _ _ (by omega)]
      refine hperm0.trans ?_
      rw [take_succ_g d _ _ (by simp; omega), g_set _ _ _ _ (by omega), if_pos rfl]
      rw [List.take_set_of_le (Nat.le_refl _)]
      exact List.perm_append_singleton _ _
  · -- proper sift-up
    have hc0 : cur' > 0 := by omega
    rw [if_pos hc0, rd_eq d l' _ (by omega), Res.bind_ok, hx _ _ (Importance.refl hI _), Res.require_true,
      Res.bind_ok]
    have hmax : ∀ i, i ≤ n → i ≠ cur' → le (g d l' i) (g d l' 0) := by
      intro i
      induction i using Nat.strongRecOn with
      | ind i ih =>
        intro hi hic
        rcases Nat.eq_zero_or_pos i with rfl | hp
        · exact Importance.refl hI _
        · exact hI.trans _ _ _ (a5 i hp (by omega) hic (by omega)) (ih _ (by omega) (by omega) (by omega))
    obtain ⟨l2, cur2, he2, b1, b2, b3, b4, b5⟩ :=
      buUp_ok hI hx d n (g d l' n) (n + 1 + 1) l' cur' (by omega) (by omega) (by omega) hc0 rfl
        (hmax n (Nat.le_refl _) (fun e => hcn e.symm)) (fun i a b c e => a5 i a (by omega) c e)
        (fun _ c hc _ e => by omega) (fun i _ hi e => by omega)
    rw [he2, Res.bind_ok]
    dsimp only
    rw [rd_eq d l2 _ (by omega), Res.bind_ok, b3 _ (Nat.le_refl _), wr_eq _ _ _ (by omega), Res.bind_ok]
    refine ⟨_, (l2.set cur2 (g d l' n)).take n, rfl,
      ⟨by simp; omega, by simp; omega, b5, List.Perm.refl _⟩, ?_⟩
    refine hperm0.trans ?_
    rw [take_succ_g d _ _ (by simp; omega), g_set _ _ _ _ (by omega), if_neg (fun e => hcn e.symm), take_set']
    refine (set_append_perm _ _ _ _ (by rw [List.length_take]; omega)).trans (List.Perm.cons _ ?_)
    rw [← take_set']
    exact b4.symm

theorem push_ok {d : α} {q : Q α} {s : List α} (h : QR le d q s) (v : α) (hs : q.size < 2147483648) :
    ∃ q' s', push li d q v = .ok q' ∧ QR le d q' s' ∧ s'.Perm (v :: s) := by
  have hsz := h.size
  have hpos := h.pos
  have hgrow : ∃ l, room d q = .ok l ∧
      q.size < l.length ∧ l.take q.size = q.pq.take q.size := by
    unfold room
    split
    · rename_i e
      unfold doubleSize
      rw [if_neg (by omega)]
      refine ⟨_, rfl, ?_, ?_⟩
      · rw [List.length_append, List.length_replicate]; omega
      · rw [List.take_append_of_le_length (by omega)]
    · exact ⟨_, rfl, by omega, rfl⟩
  obtain ⟨l, hl, hlt, htk⟩ := hgrow
  have hg : ∀ i, i < q.size → g d l i = g d q.pq i := by
    intro i hi
    have : (l.take q.size)[i]? = (q.pq.take q.size)[i]? := by rw [htk]
    rw [List.getElem?_take_of_lt hi, List.getElem?_take_of_lt hi] at this
    simp only [g, List.getD_eq_getElem?_getD, this]
  unfold push
  rw [hl, Res.bind_ok, if_neg (by omega)]
  obtain ⟨l', cur', he, a1, a2, a3, a4, a5⟩ :=
    pushLoop_ok hI d (q.size + 1) v (q.size + 1) l q.size (by omega) (by omega) (by omega)
      (fun i a b c _ => by rw [hg i (by omega), hg _ (by omega)]; exact h.heap i a (by omega))
      (fun _ c hc h0 e => by omega) (fun i h0 hi e => by omega)
  rw [he, Res.bind_ok]
  dsimp only
  rw [wr_eq _ _ _ (by omega), Res.bind_ok]
  refine ⟨_, (l'.set cur' v).take (q.size + 1), rfl, ⟨by simp; omega, by simp; omega, a5, List.Perm.refl _⟩, ?_⟩
  refine a4.trans ?_
  rw [take_succ_g d _ _ (by simp; omega), g_set _ _ _ _ (by omega), if_pos rfl,
    List.take_set_of_le (Nat.le_refl _), htk]
  exact (List.perm_append_singleton _ _).trans (List.Perm.cons _ h.perm.symm)

theorem replaceTop_ok {d : α} {q : Q α} {s : List α} (h : QR le d q s) (v : α) (hs : q.size ≠ 0) :
    ∃ q' s', replaceTop li q v = .ok q' ∧ QR le d q' s' ∧
      s'.Perm (v :: (q.pq.take q.size).drop 1) := by
  have hsz := h.size
  have hpos := h.pos
  unfold replaceTop
  obtain ⟨l', cur', he, a1, a2, a3, a4, a5⟩ :=
    rtLoop_ok hI d q.size v (q.size + 1) q.pq 0 (by omega) (by omega) (by omega)
      (fun i a b _ _ => h.heap i a b) (fun h => by omega) (fun h => by omega)
  rw [he, Res.bind_ok]
  dsimp only
  rw [wr_eq _ _ _ (by omega), Res.bind_ok]
  refine ⟨_, (l'.set cur' v).take q.size, rfl, ⟨by simp; omega, by simp; omega, a5, List.Perm.refl _⟩, ?_⟩
  refine a4.trans (List.Perm.of_eq ?_)
  cases hq : q.pq with
  | nil => rw [hq] at hpos; simp at hpos
  | cons a t =>
    obtain ⟨n, hn⟩ : ∃ n, q.size = n + 1 := ⟨q.size - 1, by omega⟩
    rw [hn]; simp

theorem QR.new (d : α) (k : Nat) (hk : 0 < k) : QR le d (new d k) [] := by
  refine ⟨by simpa [PQ.new] using hk, by simp [PQ.new], fun i a b => by simp [PQ.new] at b, by simp [PQ.new]⟩

/-- One call. -/
theorem pq_step {d : α} {q : Q α} {s : List α} (h : QR le d q s) (op : Op α)
    (hbu : op = .popBU → ∀ a b, le a b → li a b = true) :
    PQMisuse s op ∨ (PQAborts s op ∧ step li d q op = .abort) ∨
    ∃ q' o s', step li d q op = .ok (q', o) ∧ PQStep le s op o s' ∧ QR le d q' s' := by
  have hlen := h.length
  have hpos := h.pos
  have hne : s ≠ [] → q.size ≠ 0 := fun hs e => hs (List.length_eq_zero_iff.1 (by omega))
  have htop : top q = .ok (g d q.pq 0) := rd_eq d _ _ hpos
  cases op with
  | push v =>
    by_cases hb : 2147483648 ≤ s.length
    · exact .inl hb
    · obtain ⟨q', s', he, hq', hp⟩ := push_ok hI h v (by omega)
      exact .inr (.inr ⟨q', .unit, s', by simp only [step, he, Res.bind_ok, Res.pure_eq], ⟨rfl, hp⟩, hq'⟩)
  | pop =>
    by_cases hs : s = []
    · exact .inl hs
    · obtain ⟨q', s', he, hq', hp⟩ := pop_ok hI h (hne hs)
      refine .inr (.inr ⟨q', .val (g d q.pq 0), s', by simp only [step, htop, he, Res.bind_ok, Res.pure_eq],
        ⟨_, rfl, hp, fun y hy => h.best hI y (hp.symm.subset (List.mem_cons_of_mem _ hy))⟩, hq'⟩)
  | popBU =>
    by_cases hs : s = []
    · exact .inl hs
    · obtain ⟨q', s', he, hq', hp⟩ := popBU_ok hI (hbu rfl) h (hne hs)
      refine .inr (.inr ⟨q', .val (g d q.pq 0), s', by simp only [step, htop, he, Res.bind_ok, Res.pure_eq],
        ⟨_, rfl, hp, fun y hy => h.best hI y (hp.symm.subset (List.mem_cons_of_mem _ hy))⟩, hq'⟩)
  | replaceTop v =>
    by_cases hs : s = []
    · exact .inl hs
    · obtain ⟨q', s', he, hq', hp⟩ := replaceTop_ok hI h v (hne hs)
      have hp2 := h.pop_perm hI (hne hs)
      refine .inr (.inr ⟨q', .val (g d q.pq 0), s', by simp only [step, htop, he, Res.bind_ok, Res.pure_eq],
        ⟨_, _, rfl, hp2, fun y hy => h.best hI y (hp2.symm.subset (List.mem_cons_of_mem _ hy)), hp⟩, hq'⟩)
  | top =>
    by_cases hs : s = []
    · exact .inl hs
    · have hp2 := h.pop_perm hI (hne hs)
      refine .inr (.inr ⟨q, .val (g d q.pq 0), s, by simp only [step, htop, Res.bind_ok, Res.pure_eq],
        ⟨rfl, _, _, rfl, hp2, fun y hy => h.best hI y (hp2.symm.subset (List.mem_cons_of_mem _ hy))⟩, h⟩)
  | size =>
    exact .inr (.inr ⟨q, .nat q.size, s, rfl, ⟨by rw [hlen], rfl⟩, h⟩)
  | clear =>
    exact .inr (.inr ⟨clear q, .unit, [], rfl, ⟨rfl, rfl⟩,
      ⟨hpos, by simp [clear], fun i a b => by simp [clear] at b, by simp [clear]⟩⟩)
  | reserve amt =>
    by_cases hs : s = []
    · subst hs
      have hz : q.size = 0 := by simpa using hlen.symm
      have hr : reserve d q amt = .ok (if amt > q.size then ⟨List.replicate amt d, q.size⟩ else q) := by
        unfold reserve
        rw [decide_eq_true hz, Res.require_true, Res.bind_ok]
        split <;> rfl
      refine .inr (.inr ⟨_, .unit, [], by simp only [step, hr, Res.bind_ok, Res.pure_eq]; rfl, ⟨rfl, rfl, rfl⟩, ?_⟩)
      split
      · refine ⟨by rw [List.length_replicate]; omega, by dsimp only; omega, fun i a b => by dsimp only at b; omega, ?_⟩
        dsimp only
        rw [hz]; simp
      · exact h
    · refine .inr (.inl ⟨hs, ?_⟩)
      simp only [step, reserve, decide_eq_false (hne hs), Res.require_false, Res.bind_abort]

theorem pq_run {d : α} : ∀ (ops : List (Op α)) (q : Q α) (s : List α), QR le d q s →
    (Op.popBU ∈ ops → ∀ a b, le a b → li a b = true) → PQRun le s ops (run li d q ops)
  | [], _, _, _, _ => rfl
  | op :: ops, q, s, h, hbu => by
    rcases pq_step hI h op (fun e => hbu (e ▸ List.mem_cons_self)) with hm | ⟨ha, hr⟩ | ⟨q', o, s', he, hst, hq'⟩
    · exact .inl hm
    · refine .inr (.inl ⟨ha, ?_⟩)
      simp only [run, hr, Res.bind_abort]
    · refine .inr (.inr ⟨o, s', run li d q' ops, hst, pq_run ops q' s' hq' (fun hm => hbu (List.mem_cons_of_mem _ hm)), ?_⟩)
      simp only [run, he, Res.bind_ok]
      cases run li d q' ops <;> rfl

end

end Verif.PQ
