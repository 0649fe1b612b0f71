import Verif.Deque.Lemmas

/-! # Deque: property theorems (C10, C11, C58) -/

namespace Verif.Deque

variable {α : Type}

/-- The operation does not pass a reference into the deque's own storage. -/
def Op.external : Op α → Bool
  | .pushSelf _ => false
  | _ => true

theorem step_refines {d : Deque α} {l l' : List α} {op : Op α} {o : Out α} (h : Repr d l)
    (hx : op.external = true) (hs : specStep l op = some (l', o)) :
    ∃ d', step d op = .ok (d', o) ∧ Repr d' l' := by
  cases op with
  | push v =>
    obtain ⟨d', h1, h2⟩ := push_repr h v
    simp only [specStep, Option.some.injEq, Prod.mk.injEq] at hs
    obtain ⟨rfl, rfl⟩ := hs
    exact ⟨d', by simp [step, h1], h2⟩
  | pushSelf i => simp [Op.external] at hx
  | pushAll vs =>
    obtain ⟨d', h1, h2⟩ := pushAll_repr vs h
    simp only [specStep, Option.some.injEq, Prod.mk.injEq] at hs
    obtain ⟨rfl, rfl⟩ := hs
    exact ⟨d', by simp [step, h1], h2⟩
  | pop =>
    cases l with
    | nil => simp [specStep] at hs
    | cons a t =>
      obtain ⟨d', h1, h2, _⟩ := pop_repr h
      simp only [specStep, Option.some.injEq, Prod.mk.injEq] at hs
      obtain ⟨rfl, rfl⟩ := hs
      exact ⟨d', by simp [step, h1], h2⟩
  | clear =>
    obtain ⟨d', h1, h2, _⟩ := clear_repr h
    simp only [specStep, Option.some.injEq, Prod.mk.injEq] at hs
    obtain ⟨rfl, rfl⟩ := hs
    exact ⟨d', by simp [step, h1], h2⟩
  | reserve n =>
    simp only [specStep] at hs
    split at hs
    · rename_i hc
      obtain ⟨hl, hn, hn2⟩ := hc
      subst hl
      obtain ⟨d', h1, h2, _⟩ := reserve_repr h hn hn2
      simp only [Option.some.injEq, Prod.mk.injEq] at hs
      obtain ⟨rfl, rfl⟩ := hs
      exact ⟨d', by simp [step, h1], h2⟩
    · cases hs
  | front =>
    simp only [specStep, Option.map_eq_some_iff, Prod.mk.injEq] at hs
    obtain ⟨v, hv, rfl, rfl⟩ := hs
    exact ⟨d, by simp [step, front_repr h hv], h⟩
  | back =>
    simp only [specStep, Option.map_eq_some_iff, Prod.mk.injEq] at hs
    obtain ⟨v, hv, rfl, rfl⟩ := hs
    exact ⟨d, by simp [step, back_repr h hv], h⟩
  | «at» i =>
    simp only [specStep, Option.map_eq_some_iff, Prod.mk.injEq] at hs
    obtain ⟨v, hv, rfl, rfl⟩ := hs
    exact ⟨d, by simp [step, at_repr h hv], h⟩
  | size =>
    simp only [specStep, Option.some.injEq, Prod.mk.injEq] at hs
    obtain ⟨rfl, rfl⟩ := hs
    exact ⟨d, by simp [step, size_repr h], h⟩
  | empty =>
    simp only [specStep, Option.some.injEq, Prod.mk.injEq] at hs
    obtain ⟨rfl, rfl⟩ := hs
    exact ⟨d, by simp [step, empty_repr h], h⟩

theorem run_refines : ∀ (ops : List (Op α)) {d : Deque α} {l l' : List α} {os : List (Out α)},
    Repr d l → (∀ op ∈ ops, op.external = true) → specRun l ops = some (l', os) →
    ∃ d', run d ops = .ok (d', os) ∧ Repr d' l' := by
  intro ops
  induction ops with
  | nil =>
    intro d l l' os h _ hs
    simp only [specRun, Option.some.injEq, Prod.mk.injEq] at hs
    obtain ⟨rfl, rfl⟩ := hs
    exact ⟨d, rfl, h⟩
  | cons op ops ih =>
    intro d l l' os h hx hs
    simp only [specRun] at hs
    cases hs1 : specStep l op with
    | none => simp [hs1] at hs
    | some r =>
      obtain ⟨l1, o⟩ := r
      cases hs2 : specRun l1 ops with
      | none => simp [hs1, hs2] at hs
      | some r2 =>
        obtain ⟨l2, os2⟩ := r2
        simp [hs1, hs2] at hs
        obtain ⟨rfl, rfl⟩ := hs
        obtain ⟨d1, h1, r1⟩ := step_refines h (hx op (by simp)) hs1
        obtain ⟨d2, h2, r2⟩ := ih r1 (fun o ho => hx o (by simp [ho])) hs2
        exact ⟨d2, by simp [run, h1, h2], r2⟩

/-- Every history within the preconditions reaches a state representing the spec list. -/
theorem reachable (n : Nat) (hn : 1 < n) (ops : List (Op α)) (l : List α) (outs : List (Out α))
    (hx : ∀ op ∈ ops, op.external = true) (hs : specRun [] ops = some (l, outs)) :
    ∃ d, (mk' α n >>= fun d => run d ops) = .ok (d, outs) ∧ Repr d l := by
  obtain ⟨d0, h0, r0, _⟩ := mk_repr (α := α) hn
  obtain ⟨d, h1, r⟩ := run_refines ops r0 hx hs
  exact ⟨d, by simp [h0, h1], r⟩

/-- **C10.** For every initial size above one and every history of calls that respects the
documented preconditions, the deque returns exactly what a FIFO list returns: in
particular no call aborts, leaves the storage, or reads a raw cell. -/
theorem deque_fifo (n : Nat) (hn : 1 < n) (ops : List (Op α)) (l : List α) (outs : List (Out α))
    (hx : ∀ op ∈ ops, op.external = true) (hs : specRun [] ops = some (l, outs)) :
    ∃ d, (mk' α n >>= fun d => run d ops) = .ok (d, outs) := by
  obtain ⟨d0, h0, r0, _⟩ := mk_repr (α := α) hn
  obtain ⟨d, h1, _⟩ := run_refines ops r0 hx hs
  exact ⟨d, by simp [h0, h1]⟩

/-- The constructor refuses sizes below two, `Deque.hpp:45`. -/
theorem deque_ctor_rejects (n : Nat) (hn : n ≤ 1) : mk' α n = .abort := by
  simp [mk', show ¬ n > 1 by omega]

/-- Precondition violations on an empty deque are undefined behaviour in a release build,
in every reachable state. -/
theorem deque_empty_access_ub (n : Nat) (hn : 1 < n) (ops : List (Op α)) (outs : List (Out α))
    (hx : ∀ op ∈ ops, op.external = true) (hs : specRun [] ops = some ([], outs)) :
    ∃ d, (mk' α n >>= fun d => run d ops) = .ok (d, outs) ∧
      front d = .ub ∧ back d = .ub ∧ popFront d = .ub := by
  obtain ⟨d0, h0, r0, _⟩ := mk_repr (α := α) hn
  obtain ⟨d, h1, r⟩ := run_refines ops r0 hx hs
  have hraw : ∀ x, x < d.qSize → d.mem[x]? = some none := by
    intro x hx; rw [r.cell_abs x hx]; simp
  refine ⟨d, by simp [h0, h1], ?_, ?_, ?_⟩
  · simp [front, readAt, hraw _ r.front_lt]
  · have : (d.qBack + d.qSize - 1) % d.qSize < d.qSize := Nat.mod_lt _ (by have := r.two; omega)
    simp [back, readAt, hraw _ this]
  · simp [popFront, destroyAt, hraw _ r.front_lt]

example : (mk' Nat 2 >>= fun d => run d [.push 1, .push 2, .pop, .push 3, .push 4, .pushAll [5, 6],
      .front, .back, .at 2, .size, .clear, .empty]) =
    .ok (⟨List.replicate 8 none, 0, 0, 8⟩, [.unit, .unit, .unit, .unit, .unit, .unit,
      .val 2, .val 6, .val 4, .nat 5, .unit, .bool true]) := by decide

example : specRun [] [Op.push 1, .push 2, .pop, .push 3, .push 4, .pushAll [5, 6],
      .front, .back, .at 2, .size, .clear, .empty] =
    some (([] : List Nat), [.unit, .unit, .unit, .unit, .unit, .unit,
      .val 2, .val 6, .val 4, .nat 5, .unit, .bool true]) := by decide

/-! ### Capacity -/

/-- Helper: after `reserve(n)` on an empty deque, any `n` pushes keep the storage in place
(no reallocation: `q_size` and the buffer stay), and `capacity()` reports `n`. -/
theorem reserve_no_realloc_repr (d : Deque α) (h : Repr d ([] : List α)) (n : Nat) (hn : 0 < n)
    (hn2 : n < 2 ^ 64 - 1) (vs : List α) (hv : vs.length ≤ n) :
    ∃ d1 d2, reserve d n = .ok d1 ∧ capacity d1 = n ∧ pushBackAll d1 vs = .ok d2 ∧
      d2.qSize = d1.qSize ∧ d2.qFront = d1.qFront := by
  obtain ⟨d1, h1, r1, q1⟩ := reserve_repr h hn hn2
  have key : ∀ (vs : List α) (e : Deque α) (l : List α), Repr e l → e.qSize = n + 1 →
      l.length + vs.length ≤ n →
      ∃ d2, pushBackAll e vs = .ok d2 ∧ d2.qSize = e.qSize ∧ d2.qFront = e.qFront := by
    intro vs
    induction vs with
    | nil => intro e l _ _ _; exact ⟨e, rfl, rfl, rfl⟩
    | cons v vs ih =>
      intro e l r hq hl
      simp only [List.length_cons] at hl
      have hfit : l.length + 1 < e.qSize := by omega
      obtain ⟨e', he, re, hqe⟩ := push_fit_repr r hfit (.ext v) v rfl
      have hfr : e'.qFront = e.qFront := by
        have hne : (e.qBack + 1) % e.qSize ≠ e.qFront := by
          intro ee
          have : (e.qBack + 1) % e.qSize = (e.qFront + (l.length + 1)) % e.qSize := by
            rw [r.back_eq, Nat.mod_add_mod]; congr 1
          rw [this] at ee
          have := ring_inj r.front_lt (i := l.length + 1) (j := 0) (by omega) (by omega)
            (by rw [ee, Nat.add_zero, Nat.mod_eq_of_lt r.front_lt])
          omega
        simp only [pushBack, ne_eq, hne, not_false_eq_true, if_true, Arg.get, Res.bind_ok] at he
        cases hc : constructAt e.mem e.qBack v with
        | ok m => simp [hc] at he; rw [← he]
        | abort => simp [hc] at he
        | ub => simp [hc] at he
      obtain ⟨d2, hd2, hq2, hf2⟩ := ih e' (l ++ [v]) re (by omega) (by simp; omega)
      exact ⟨d2, by simp [pushBackAll, he, hd2], by omega, by omega⟩
  obtain ⟨d2, h2, h3, h4⟩ := key vs d1 [] r1 q1 (by simpa using hv)
  exact ⟨d1, d2, h1, by simp [capacity, q1], h2, h3, h4⟩

/-- **C10 (capacity).** In every reachable empty state, after `reserve(n)` `capacity()`
reports `n` and any `n` pushes keep the storage in place (no reallocation). -/
theorem deque_reserve_no_realloc (n0 : Nat) (hn0 : 1 < n0) (ops : List (Op α)) (outs : List (Out α))
    (hx : ∀ op ∈ ops, op.external = true) (hs : specRun [] ops = some ([], outs))
    (n : Nat) (hn : 0 < n) (hn2 : n < 2 ^ 64 - 1) (vs : List α) (hv : vs.length ≤ n) :
    ∃ d d1 d2, (mk' α n0 >>= fun d => run d ops) = .ok (d, outs) ∧
      reserve d n = .ok d1 ∧ capacity d1 = n ∧ pushBackAll d1 vs = .ok d2 ∧
      d2.qSize = d1.qSize ∧ d2.qFront = d1.qFront := by
  obtain ⟨d, h, r⟩ := reachable n0 hn0 ops [] outs hx hs
  obtain ⟨d1, d2, h1, h2⟩ := reserve_no_realloc_repr d r n hn hn2 vs hv
  exact ⟨d, d1, d2, h, h1, h2⟩

/-- **C10 (refusals).** In every reachable state `reserve` on a non-empty deque, `reserve(0)` and
`reserve(size_t max)` abort: no element is ever dropped silently, `Deque.hpp:94-96`. -/
theorem deque_reserve_rejects (n0 : Nat) (hn0 : 1 < n0) (ops : List (Op α)) (l : List α)
    (outs : List (Out α)) (hx : ∀ op ∈ ops, op.external = true)
    (hs : specRun [] ops = some (l, outs)) (n : Nat)
    (hbad : l ≠ [] ∨ n = 0 ∨ 2 ^ 64 - 1 ≤ n) :
    ∃ d, (mk' α n0 >>= fun d => run d ops) = .ok (d, outs) ∧ reserve d n = .abort := by
  obtain ⟨d, h, r⟩ := reachable n0 hn0 ops l outs hx hs
  refine ⟨d, h, ?_⟩
  unfold reserve
  rw [empty_repr r]
  rcases hl : l.isEmpty with _ | _
  · simp [Res.require]
  · have hnil : l = [] := List.isEmpty_iff.1 hl
    have hn : ¬ (n > 0 ∧ n < 2 ^ 64 - 1) := by
      rintro ⟨h1, h2⟩
      rcases hbad with h3 | h3 | h3
      · exact h3 hnil
      · omega
      · omega
    simp only [Res.require_true, Res.bind_ok, decide_eq_false hn]
    simp [Res.require]

example : specRun [] [Op.push 1, .push 2, .pop] = some ([2], [.unit, .unit, .unit]) := by decide

/-! ### Self-referential push (C58) -/

/-- **C58, refuted.** `d.push_back(d.front())` on a full deque reads a destroyed object:
the element is destroyed (`Deque.hpp:276`) before it is copied (`:293`). It happens in
every state whose size equals its capacity. -/
theorem deque_self_push_full_ub (n : Nat) (hn : 1 < n) (ops : List (Op α)) (l : List α)
    (outs : List (Out α)) (hx : ∀ op ∈ ops, op.external = true)
    (hs : specRun [] ops = some (l, outs)) :
    ∃ d, (mk' α n >>= fun d => run d ops) = .ok (d, outs) ∧
      (size d = capacity d → ∀ i, step d (.pushSelf i) = .ub) := by
  obtain ⟨d, hd, h⟩ := reachable n hn ops l outs hx hs
  refine ⟨d, hd, fun hfull i => ?_⟩
  have hs := size_repr h
  have : l.length + 1 = d.qSize := by
    have := h.two
    unfold capacity at hfull; omega
  simp [step, push_grow_self h this]

/-- A concrete reachable instance: default size 2, one element. -/
theorem deque_self_push_bug :
    (mk' Nat 2 >>= fun d => run d [.push 7, .pushSelf 0]) = .ub ∧
    specRun [] [Op.push 7, .pushSelf 0] = some ([7, 7], [.unit, .unit]) := by decide

/-- **C58, partial.** With spare capacity a self-referential push is correct. -/
theorem deque_self_push_partial (n : Nat) (hn : 1 < n) (ops : List (Op α)) (l : List α)
    (outs : List (Out α)) (hx : ∀ op ∈ ops, op.external = true)
    (hs : specRun [] ops = some (l, outs)) (i : Nat) (v : α) (hi : l[i]? = some v) :
    ∃ d, (mk' α n >>= fun d => run d ops) = .ok (d, outs) ∧
      (size d < capacity d →
        ∃ d', step d (.pushSelf i) = .ok (d', .unit) ∧ Repr d' (l ++ [v])) := by
  obtain ⟨d, hd, h⟩ := reachable n hn ops l outs hx hs
  refine ⟨d, hd, fun hroom => ?_⟩
  have hs := size_repr h
  have hfit : l.length + 1 < d.qSize := by unfold capacity at hroom; omega
  have hlt : i < l.length := by
    rcases Nat.lt_or_ge i l.length with h | h
    · exact h
    · rw [List.getElem?_eq_none h] at hi; cases hi
  have hc := h.cells i (by have := h.fits; omega)
  rw [hi] at hc
  obtain ⟨d', h1, h2, _⟩ := push_fit_repr h hfit (.self ((d.qFront + i) % d.qSize)) v
    (readAt_some hc)
  exact ⟨d', by simp [step, h1], h2⟩

/-! ### Iterators (C11) -/

/-- The iterator `begin()` advanced `k` times by `++`. -/
def nth (d : Deque α) : Nat → Nat
  | 0 => begin' d
  | k + 1 => itInc d (nth d k)

theorem nth_eq {d : Deque α} {l : List α} (h : Repr d l) (hq : d.qSize < 2 ^ 62) (k : Nat) :
    nth d k = (d.qFront + k) % d.qSize := by
  induction k with
  | zero => simp [nth, begin', Nat.mod_eq_of_lt h.front_lt]
  | succ k ih =>
    simp only [nth, ih, itInc, W]
    have := ring_lt (i := k) h.front_lt
    rw [Nat.mod_eq_of_lt (a := _ + 1) (by omega), Nat.mod_add_mod]; congr 1

theorem nth_lt {d : Deque α} {l : List α} (h : Repr d l) (hq : d.qSize < 2 ^ 62) (k : Nat) :
    nth d k < d.qSize := by
  rw [nth_eq h hq]; exact ring_lt h.front_lt

theorem end_eq {d : Deque α} {l : List α} (h : Repr d l) (hq : d.qSize < 2 ^ 62) :
    end' d = nth d l.length := by
  rw [nth_eq h hq, end', h.back_eq]

theorem nth_inj {d : Deque α} {l : List α} (h : Repr d l) (hq : d.qSize < 2 ^ 62) {i j : Nat}
    (hi : i ≤ l.length) (hj : j ≤ l.length) (e : nth d i = nth d j) : i = j := by
  have := h.fits
  rw [nth_eq h hq, nth_eq h hq] at e
  exact ring_inj h.front_lt (by omega) (by omega) e

theorem walk_from {d : Deque α} {l : List α} (h : Repr d l) (hq : d.qSize < 2 ^ 62) :
    ∀ (n k fuel : Nat), k + n = l.length → n ≤ fuel → walk d (nth d k) fuel = .ok (l.drop k) := by
  intro n
  induction n with
  | zero =>
    intro k fuel hk _
    have e : nth d k = end' d := by rw [end_eq h hq]; congr 1
    rw [List.drop_eq_nil_of_le (by omega)]
    cases fuel <;> simp [walk, e]
  | succ n ih =>
    intro k fuel hk hf
    have hne : nth d k ≠ end' d := by
      rw [end_eq h hq]; intro e
      have := nth_inj h hq (by omega) (by omega) e; omega
    cases fuel with
    | zero => omega
    | succ fuel =>
      have hv : l[k]? = some l[k] := by simp
      have hd : itDeref d (nth d k) = .ok l[k] := by
        rw [nth_eq h hq]; exact at_repr h hv
      have := ih (k + 1) fuel (by omega) (by omega)
      simp only [walk, hne, if_false, hd, Res.bind_ok]
      rw [show itInc d (nth d k) = nth d (k + 1) from rfl, this]
      rw [List.drop_eq_getElem_cons (by omega : k < l.length)]; rfl

/-- **C11 (enumeration).** In every reachable state the loop from `begin()` to `end()`
terminates within `size()` steps and yields the queue in order. -/
theorem deque_iteration (n : Nat) (hn : 1 < n) (ops : List (Op α)) (l : List α)
    (outs : List (Out α)) (hx : ∀ op ∈ ops, op.external = true)
    (hs : specRun [] ops = some (l, outs)) :
    ∃ d, (mk' α n >>= fun d => run d ops) = .ok (d, outs) ∧
      (d.qSize < 2 ^ 62 → walk d (begin' d) (size d) = .ok l) := by
  obtain ⟨d0, h0, r0, _⟩ := mk_repr (α := α) hn
  obtain ⟨d, h1, r⟩ := run_refines ops r0 hx hs
  refine ⟨d, by simp [h0, h1], fun hq => ?_⟩
  have := walk_from r hq l.length 0 (size d) (by omega) (by rw [size_repr r]; omega)
  simpa [nth] using this

theorem itAdd_nth {d : Deque α} {l : List α} (h : Repr d l) (hq : d.qSize < 2 ^ 62)
    (k : Nat) (hk : k ≤ l.length) (diff : Int) (h0 : 0 ≤ k + diff) (h1 : k + diff ≤ l.length)
    (hok : 0 ≤ diff ∨ d.qSize ∣ W) :
    itAdd d (nth d k) diff = nth d (k + diff).toNat := by
  have hf := h.front_lt
  have hl := h.fits
  have hlt := nth_lt h hq k
  rw [nth_eq h hq (k + diff).toNat]
  have hnk := nth_eq h hq k
  unfold itAdd toSize
  rw [ring_ix hf (by omega)] at hnk
  rw [ring_ix hf (by omega)]
  by_cases hneg : (nth d k : Int) + diff < 0
  · -- wraps below zero: correct because q_size divides 2^64
    have hdiv : d.qSize ∣ W := by
      rcases hok with h | h
      · omega
      · exact h
    obtain ⟨c, hc⟩ := hdiv
    have hWpos : (W : Int) = 18446744073709551616 := by simp [W]
    have e1 : ((nth d k : Int) + diff) % (W : Int) = (nth d k : Int) + diff + W := by
      rw [← Int.add_emod_right]
      exact Int.emod_eq_of_lt (by rw [hWpos]; omega) (by omega)
    rw [e1]
    have hc1 : 1 ≤ c := by
      rcases Nat.eq_zero_or_pos c with h | h
      · subst h; simp [W] at hc
      · exact h
    obtain ⟨c', rfl⟩ : ∃ c', c = c' + 1 := ⟨c - 1, by omega⟩
    have e2 : ((nth d k : Int) + diff + W).toNat
        = ((nth d k : Int) + diff + d.qSize).toNat + d.qSize * c' := by
      rw [hc, Nat.mul_add]; omega
    rw [e2, Nat.add_mul_mod_self_left, Nat.mod_eq_of_lt (by omega)]
    split at hnk <;> split <;> omega
  · have e1 : ((nth d k : Int) + diff) % (W : Int) = (nth d k : Int) + diff :=
      Int.emod_eq_of_lt (by omega) (by simp only [W]; omega)
    rw [e1]
    by_cases hw : ((nth d k : Int) + diff).toNat < d.qSize
    · rw [Nat.mod_eq_of_lt hw]
      split at hnk <;> split <;> omega
    · rw [Nat.mod_eq_sub_mod (by omega), Nat.mod_eq_of_lt (by omega)]
      split at hnk <;> split <;> omega

theorem itSub_nth {d : Deque α} {l : List α} (h : Repr d l) (hq : d.qSize < 2 ^ 62)
    (k : Nat) (hk : k ≤ l.length) (diff : Int) (h0 : 0 ≤ k - diff) (h1 : k - diff ≤ l.length) :
    itSub d (nth d k) diff = nth d (k - diff).toNat := by
  have hf := h.front_lt
  have hl := h.fits
  have hlt := nth_lt h hq k
  rw [nth_eq h hq (k - diff).toNat]
  have hnk := nth_eq h hq k
  unfold itSub toSize
  rw [ring_ix hf (by omega)] at hnk
  rw [ring_ix hf (by omega)]
  have e1 : ((nth d k : Int) + d.qSize - diff) % (W : Int) = (nth d k : Int) + d.qSize - diff :=
    Int.emod_eq_of_lt (by split at hnk <;> omega) (by simp only [W]; split at hnk <;> omega)
  rw [e1]
  by_cases hw : ((nth d k : Int) + d.qSize - diff).toNat < d.qSize
  · rw [Nat.mod_eq_of_lt hw]
    split at hnk <;> split <;> omega
  · rw [Nat.mod_eq_sub_mod (by omega)]
    by_cases hw2 : ((nth d k : Int) + d.qSize - diff).toNat - d.qSize < d.qSize
    · rw [Nat.mod_eq_of_lt hw2]
      split at hnk <;> split <;> omega
    · rw [Nat.mod_eq_sub_mod (by omega), Nat.mod_eq_of_lt (by omega)]
      split at hnk <;> split <;> omega

theorem logicalOffset_nth {d : Deque α} {l : List α} (h : Repr d l) (hq : d.qSize < 2 ^ 62)
    (k : Nat) (hk : k ≤ l.length) : logicalOffset d (nth d k) = k := by
  have hf := h.front_lt
  have hl := h.fits
  have hlt := nth_lt h hq k
  have hnk := nth_eq h hq k
  unfold logicalOffset toSize
  rw [ring_ix hf (by omega)] at hnk
  have e1 : ((nth d k : Int) - d.qFront + d.qSize) % (W : Int) = (nth d k : Int) - d.qFront + d.qSize :=
    Int.emod_eq_of_lt (by omega) (by simp only [W]; omega)
  rw [e1]
  by_cases hw : ((nth d k : Int) - d.qFront + d.qSize).toNat < d.qSize
  · rw [Nat.mod_eq_of_lt hw]; split at hnk <;> omega
  · rw [Nat.mod_eq_sub_mod (by omega), Nat.mod_eq_of_lt (by omega)]
    split at hnk <;> omega

/-- **C11, partial (random access).** In every state representing a queue `l`, for the
iterator at any position `k` up to `end()`:
dereferencing gives element `k`; comparison, equality and difference follow positions;
`--` steps back; `it - n` moves to position `k - n` for every in-range `n` of either sign;
`it + n` moves to position `k + n` for every in-range `n ≥ 0`, and for negative `n` too
when the buffer size divides `2^64`.
Missing for the full statement: negative `n` in `it + n` for other buffer sizes, which is
false, see `deque_iterator_add_negative_bug`. -/
theorem deque_iterator_random_access_partial (n : Nat) (hn : 1 < n) (ops : List (Op α))
    (l : List α) (outs : List (Out α)) (hx : ∀ op ∈ ops, op.external = true)
    (hs : specRun [] ops = some (l, outs)) :
    ∃ d, (mk' α n >>= fun d => run d ops) = .ok (d, outs) ∧
    (d.qSize < 2 ^ 62 → ∀ k, k ≤ l.length →
    (∀ v, l[k]? = some v → itDeref d (nth d k) = .ok v) ∧
    (∀ j, j ≤ l.length → (nth d k = nth d j ↔ k = j)) ∧
    (∀ j, j ≤ l.length → (itLt d (nth d k) (nth d j) = true ↔ k < j)) ∧
    (∀ j, j ≤ l.length → itDiff d (nth d k) (nth d j) = (k : Int) - j) ∧
    (0 < k → itDec d (nth d k) = nth d (k - 1)) ∧
    (∀ n : Int, 0 ≤ k - n → k - n ≤ l.length → itSub d (nth d k) n = nth d (k - n).toNat) ∧
    (∀ n : Int, 0 ≤ k + n → k + n ≤ l.length → (0 ≤ n ∨ d.qSize ∣ W) →
      itAdd d (nth d k) n = nth d (k + n).toNat) ∧
    nth d 0 = begin' d ∧ nth d l.length = end' d) := by
  obtain ⟨d, hd, h⟩ := reachable n hn ops l outs hx hs
  refine ⟨d, hd, fun hq k hk => ?_⟩
  refine ⟨?_, ?_, ?_, ?_, ?_, ?_, ?_, rfl, (end_eq h hq).symm⟩
  · intro v hv; rw [nth_eq h hq]; exact at_repr h hv
  · intro j hj; exact ⟨nth_inj h hq hk hj, fun e => by rw [e]⟩
  · intro j hj
    simp [itLt, logicalOffset_nth h hq _ hk, logicalOffset_nth h hq _ hj]
  · intro j hj
    simp [itDiff, logicalOffset_nth h hq _ hk, logicalOffset_nth h hq _ hj]
  · intro hp
    have := itSub_nth h hq k hk 1 (by omega) (by omega)
    rw [show ((k : Int) - 1).toNat = k - 1 by omega] at this
    rw [← this]
    have hlt := nth_lt h hq k
    unfold itDec itSub toSize
    have e1 : ((nth d k : Int) + d.qSize - 1) % (W : Int) = (nth d k : Int) + d.qSize - 1 :=
      Int.emod_eq_of_lt (by omega) (by simp only [W]; omega)
    have hW : 2 ^ 63 < W := by simp [W]
    have e2 : (nth d k + d.qSize + (W - 1)) % W = nth d k + d.qSize - 1 := by
      rw [show nth d k + d.qSize + (W - 1) = (nth d k + d.qSize - 1) + W by omega,
        Nat.add_mod_right, Nat.mod_eq_of_lt (by omega)]
    rw [e1, e2, show ((nth d k : Int) + d.qSize - 1).toNat = nth d k + d.qSize - 1 by omega]
  · exact fun n => itSub_nth h hq k hk n
  · exact fun n => itAdd_nth h hq k hk n

/-- Reachability of the hypotheses above: a wrapped-around queue. -/
example : ∃ d, (mk' Nat 4 >>= fun d => run d [.push 1, .push 2, .pop, .pop, .push 3, .push 4, .push 5])
      = .ok (d, List.replicate 7 .unit) ∧ Repr d [3, 4, 5] ∧ d.qSize < 2 ^ 62 ∧ d.qBack < d.qFront := by
  refine ⟨⟨[some 5, none, some 3, some 4], 2, 1, 4⟩, by decide, ?_, by decide, by decide⟩
  constructor <;> decide

/-- **C11, refuted part.** `it + (-1)` on a wrapped deque whose buffer size is 3 (what
`reserve(2)` gives) does not move back: it stays where it was. -/
theorem deque_iterator_add_negative_bug :
    ∃ d : Deque Nat, (mk' Nat 8 >>= fun d => run d [.reserve 2, .push 1, .push 2, .pop, .push 3])
        = .ok (d, List.replicate 5 .unit) ∧
      walk d (begin' d) 2 = .ok [2, 3] ∧ nth d 2 = end' d ∧
      itAdd d (end' d) (-1) = end' d ∧ itAdd d (end' d) (-1) ≠ nth d 1 := by
  refine ⟨⟨[none, some 2, some 3], 1, 0, 3⟩, ?_⟩
  decide

end Verif.Deque
