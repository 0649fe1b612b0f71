import Verif.Deque.Spec

/-! Helper lemmas for the deque refinement. -/

namespace Verif.Deque

variable {α : Type}

/-- Index of logical position `i` in a ring of size `q` starting at `f`. -/
theorem ring_ix {f i q : Nat} (hf : f < q) (hi : i ≤ q) :
    (f + i) % q = if f + i < q then f + i else f + i - q := by
  split
  · rename_i h; exact Nat.mod_eq_of_lt h
  · rename_i h
    rw [Nat.mod_eq_sub_mod (by omega)]
    exact Nat.mod_eq_of_lt (by omega)

theorem ring_inj {f i j q : Nat} (hf : f < q) (hi : i < q) (hj : j < q)
    (h : (f + i) % q = (f + j) % q) : i = j := by
  rw [ring_ix hf (by omega), ring_ix hf (by omega)] at h
  split at h <;> split at h <;> omega

theorem ring_lt {f i q : Nat} (hf : f < q) : (f + i) % q < q := Nat.mod_lt _ (by omega)

/-- The representation relation: the queue `l` is laid out from `qFront` on, all other
cells are raw. -/
structure Repr (d : Deque α) (l : List α) : Prop where
  two : 1 < d.qSize
  len : d.mem.length = d.qSize
  front_lt : d.qFront < d.qSize
  fits : l.length < d.qSize
  back_eq : d.qBack = (d.qFront + l.length) % d.qSize
  cells : ∀ i, i < d.qSize → d.mem[(d.qFront + i) % d.qSize]? = some l[i]?

theorem Repr.cell_abs {d : Deque α} {l : List α} (h : Repr d l) (x : Nat) (hx : x < d.qSize) :
    d.mem[x]? = some l[if d.qFront ≤ x then x - d.qFront else x + d.qSize - d.qFront]? := by
  have hf := h.front_lt
  have := h.cells (if d.qFront ≤ x then x - d.qFront else x + d.qSize - d.qFront)
    (by split <;> omega)
  rw [← this]
  congr 1
  rw [ring_ix hf (by split <;> omega)]
  split <;> split <;> omega

theorem readAt_some {m : Mem α} {i : Nat} {v : α} (h : m[i]? = some (some v)) :
    readAt m i = .ok v := by simp [readAt, h]

theorem constructAt_none {m : Mem α} {i : Nat} {v : α} (h : m[i]? = some none) :
    constructAt m i v = .ok (m.set i (some v)) := by simp [constructAt, h]

theorem destroyAt_some {m : Mem α} {i : Nat} {v : α} (h : m[i]? = some (some v)) :
    destroyAt m i = .ok (m.set i none) := by simp [destroyAt, h]

theorem mk_repr {n : Nat} (h : 1 < n) :
    ∃ d, mk' α n = .ok d ∧ Repr d [] ∧ d.qSize = n := by
  refine ⟨{ mem := allocate α n, qFront := 0, qBack := 0, qSize := n }, ?_, ?_, rfl⟩
  · simp [mk', h]
  · constructor <;> simp_all [allocate]
    · omega
    · omega
    · intro i hi
      rw [List.getElem?_replicate]
      rw [Nat.mod_eq_of_lt hi]; simp [hi]

theorem size_repr {d : Deque α} {l : List α} (h : Repr d l) : size d = l.length := by
  obtain ⟨_, _, hf, hl, hb, _⟩ := h
  unfold size
  rw [hb, ring_ix hf (by omega)]
  split
  · rw [show d.qFront + l.length + d.qSize - d.qFront = l.length + d.qSize by omega]
    rw [Nat.add_mod_right]; exact Nat.mod_eq_of_lt hl
  · rw [show d.qFront + l.length - d.qSize + d.qSize - d.qFront = l.length by omega]
    exact Nat.mod_eq_of_lt hl

theorem empty_repr {d : Deque α} {l : List α} (h : Repr d l) : empty d = l.isEmpty := by
  obtain ⟨_, _, hf, hl, hb, _⟩ := h
  unfold empty
  rw [hb, ring_ix hf (by omega)]
  cases l with
  | nil => simp; intro; omega
  | cons a t =>
    simp only [List.length_cons, List.isEmpty_cons, beq_eq_false_iff_ne] at *
    split <;> omega

theorem at_repr {d : Deque α} {l : List α} (h : Repr d l) {i : Nat} {v : α} (hi : l[i]? = some v) :
    at' d i = .ok v := by
  have hlt : i < l.length := by
    rcases Nat.lt_or_ge i l.length with h | h
    · exact h
    · rw [List.getElem?_eq_none h] at hi; cases hi
  have := h.cells i (by have := h.fits; omega)
  rw [hi] at this
  exact readAt_some this

theorem front_repr {d : Deque α} {l : List α} (h : Repr d l) {v : α} (hi : l.head? = some v) :
    front d = .ok v := by
  have h0 : l[0]? = some v := by rw [← List.head?_eq_getElem?]; exact hi
  have := at_repr h h0
  unfold at' at this
  rw [Nat.add_zero, Nat.mod_eq_of_lt h.front_lt] at this
  exact this

theorem back_repr {d : Deque α} {l : List α} (h : Repr d l) {v : α} (hi : l.getLast? = some v) :
    back d = .ok v := by
  rw [List.getLast?_eq_getElem?] at hi
  have hne : l ≠ [] := by rintro rfl; simp at hi
  have hpos : 0 < l.length := List.length_pos_iff.mpr hne
  have := at_repr h hi
  unfold at' at this
  unfold back
  rw [show (d.qBack + d.qSize - 1) % d.qSize = (d.qFront + (l.length - 1)) % d.qSize from ?_]
  · exact this
  · have hf := h.front_lt
    have hl := h.fits
    rw [h.back_eq, ring_ix hf (by omega), ring_ix hf (by omega)]
    split
    · rw [show d.qFront + l.length + d.qSize - 1 = d.qFront + l.length - 1 + d.qSize by omega,
        Nat.add_mod_right, Nat.mod_eq_of_lt (by omega)]
      split <;> omega
    · by_cases h0 : d.qFront + l.length = d.qSize
      · rw [show d.qFront + l.length - d.qSize + d.qSize - 1 = d.qSize - 1 by omega,
          Nat.mod_eq_of_lt (by omega)]
        split <;> omega
      · rw [show d.qFront + l.length - d.qSize + d.qSize - 1 =
          (d.qFront + l.length - d.qSize - 1) + d.qSize by omega,
          Nat.add_mod_right, Nat.mod_eq_of_lt (by omega)]
        split <;> omega

theorem pop_repr {d : Deque α} {a : α} {t : List α} (h : Repr d (a :: t)) :
    ∃ d', popFront d = .ok d' ∧ Repr d' t ∧ d'.qSize = d.qSize := by
  have hf := h.front_lt
  have hl := h.fits
  have h0 := h.cells 0 (by have := h.two; omega)
  rw [Nat.add_zero, Nat.mod_eq_of_lt hf] at h0
  simp only [List.length_cons] at hl
  have hnext : (d.qFront + 1) % d.qSize < d.qSize := ring_lt hf
  have step : ∀ i, i < d.qSize →
      ((d.qFront + 1) % d.qSize + i) % d.qSize = (d.qFront + (i + 1)) % d.qSize := by
    intro i _
    rw [Nat.mod_add_mod]; congr 1; omega
  refine ⟨{ d with mem := d.mem.set d.qFront none, qFront := (d.qFront + 1) % d.qSize },
    by simp only [popFront, destroyAt_some h0, Res.bind_ok, Res.pure_eq], ?_, rfl⟩
  constructor
  · exact h.two
  · simp [h.len]
  · exact hnext
  · show t.length < d.qSize
    omega
  · show d.qBack = ((d.qFront + 1) % d.qSize + t.length) % d.qSize
    rw [step _ (by omega), h.back_eq]; simp
  · intro i (hi : i < d.qSize)
    show (d.mem.set d.qFront none)[((d.qFront + 1) % d.qSize + i) % d.qSize]? = some t[i]?
    rw [step i hi, List.getElem?_set]
    by_cases hw : i + 1 = d.qSize
    · rw [hw, Nat.add_mod_right, Nat.mod_eq_of_lt hf]
      simp only [h.len, hf, if_true]
      rw [List.getElem?_eq_none (by omega)]
    · rw [if_neg]
      · rw [h.cells (i + 1) (by omega)]; simp
      · intro e
        have := ring_inj hf (i := 0) (j := i + 1) (by omega) (by omega)
          (by rw [Nat.add_zero, Nat.mod_eq_of_lt hf]; exact e)
        omega

/-- Copy loop: `vs` are the objects in old cells `j, j+1, ...`. -/
theorem moveLoop_spec : ∀ (vs : List α) (old new : Mem α) (j i : Nat),
    (∀ k, k < vs.length → old[j + k]? = some vs[k]?) →
    (∀ k, k < vs.length → new[i + k]? = some none) →
    ∃ old' new', moveLoop old new j i vs.length = .ok (old', new', i + vs.length) ∧
      old'.length = old.length ∧ new'.length = new.length ∧
      (∀ x, old'[x]? = if j ≤ x ∧ x < j + vs.length then some none else old[x]?) ∧
      (∀ x, new'[x]? = if i ≤ x ∧ x < i + vs.length then some vs[x - i]? else new[x]?) := by
  intro vs
  induction vs with
  | nil =>
    intro old new j i _ _
    refine ⟨old, new, rfl, rfl, rfl, ?_, ?_⟩ <;> intro x <;> rw [if_neg] <;> simp <;> omega
  | cons v vs ih =>
    intro old new j i ho hn
    have ho0 := ho 0 (by simp)
    have hn0 := hn 0 (by simp)
    simp only [Nat.add_zero, List.getElem?_cons_zero] at ho0 hn0
    have hjl : j < old.length := by
      rcases Nat.lt_or_ge j old.length with h | h
      · exact h
      · rw [List.getElem?_eq_none h] at ho0; cases ho0
    have hil : i < new.length := by
      rcases Nat.lt_or_ge i new.length with h | h
      · exact h
      · rw [List.getElem?_eq_none h] at hn0; cases hn0
    obtain ⟨old', new', hrun, hlo, hln, hso, hsn⟩ :=
      ih (old.set j none) (new.set i (some v)) (j + 1) (i + 1)
        (by
          intro k hk
          rw [List.getElem?_set, if_neg (by omega)]
          have := ho (k + 1) (by simp; omega)
          rw [show j + 1 + k = j + (k + 1) by omega, this]; simp)
        (by
          intro k hk
          rw [List.getElem?_set, if_neg (by omega)]
          have := hn (k + 1) (by simp; omega)
          rw [show i + 1 + k = i + (k + 1) by omega, this])
    refine ⟨old', new', ?_, by simpa using hlo, by simpa using hln, ?_, ?_⟩
    · show moveLoop old new j i (vs.length + 1) = _
      simp only [moveLoop, readAt_some ho0, constructAt_none hn0, destroyAt_some ho0, Res.bind_ok]
      rw [hrun]
      simp only [List.length_cons]
      congr 3; omega
    · intro x
      rw [hso x, List.getElem?_set]
      simp only [List.length_cons]
      by_cases hx : j = x
      · subst hx
        rw [if_neg (by omega), if_pos rfl, if_pos hjl, if_pos (by omega)]
      · rw [if_neg hx]
        by_cases hc : j + 1 ≤ x ∧ x < j + 1 + vs.length
        · rw [if_pos hc, if_pos (by omega)]
        · rw [if_neg hc, if_neg (by omega)]
    · intro x
      rw [hsn x, List.getElem?_set]
      simp only [List.length_cons]
      by_cases hx : i = x
      · subst hx
        rw [if_neg (by omega), if_pos rfl, if_pos hil, if_pos (by omega)]
        simp
      · rw [if_neg hx]
        by_cases hc : i + 1 ≤ x ∧ x < i + 1 + vs.length
        · rw [if_pos hc, if_pos (by omega)]
          rw [show x - i = (x - (i + 1)) + 1 by omega]; simp
        · rw [if_neg hc, if_neg (by omega)]

theorem destroyLoop_spec : ∀ (n : Nat) (m : Mem α) (i : Nat),
    (∀ k, k < n → ∃ v, m[i + k]? = some (some v)) →
    ∃ m', destroyLoop m i n = .ok m' ∧ m'.length = m.length ∧
      ∀ x, m'[x]? = if i ≤ x ∧ x < i + n then some none else m[x]? := by
  intro n
  induction n with
  | zero =>
    intro m i _
    exact ⟨m, rfl, rfl, fun x => by rw [if_neg (by omega)]⟩
  | succ n ih =>
    intro m i h
    obtain ⟨v, hv⟩ := h 0 (by omega)
    rw [Nat.add_zero] at hv
    have hil : i < m.length := by
      rcases Nat.lt_or_ge i m.length with h | h
      · exact h
      · rw [List.getElem?_eq_none h] at hv; cases hv
    obtain ⟨m', hr, hl, hs⟩ := ih (m.set i none) (i + 1) (by
      intro k hk
      obtain ⟨w, hw⟩ := h (k + 1) (by omega)
      refine ⟨w, ?_⟩
      rw [List.getElem?_set, if_neg (by omega), show i + 1 + k = i + (k + 1) by omega, hw])
    refine ⟨m', ?_, by simpa using hl, ?_⟩
    · simp only [destroyLoop, destroyAt_some hv, Res.bind_ok, hr]
    · intro x
      rw [hs x, List.getElem?_set]
      by_cases hx : i = x
      · subst hx
        rw [if_neg (by omega), if_pos rfl, if_pos hil, if_pos (by omega)]
      · rw [if_neg hx]
        by_cases hc : i + 1 ≤ x ∧ x < i + 1 + n
        · rw [if_pos hc, if_pos (by omega)]
        · rw [if_neg hc, if_neg (by omega)]

/-- Non-growing push. -/
theorem push_fit_repr {d : Deque α} {l : List α} (h : Repr d l) (hfit : l.length + 1 < d.qSize)
    (arg : Arg α) (v : α) (hv : arg.get d.mem = .ok v) :
    ∃ d', pushBack d arg = .ok d' ∧ Repr d' (l ++ [v]) ∧ d'.qSize = d.qSize := by
  have hf := h.front_lt
  have hb : d.mem[d.qBack]? = some none := by
    have := h.cells l.length h.fits
    rw [← h.back_eq] at this
    rw [this, List.getElem?_eq_none (Nat.le_refl _)]
  have hnext : (d.qBack + 1) % d.qSize = (d.qFront + (l.length + 1)) % d.qSize := by
    rw [h.back_eq, Nat.mod_add_mod]; congr 1
  have hne : (d.qBack + 1) % d.qSize ≠ d.qFront := by
    rw [hnext]
    intro e
    have := ring_inj hf (i := l.length + 1) (j := 0) (by omega) (by omega)
      (by rw [e, Nat.add_zero, Nat.mod_eq_of_lt hf])
    omega
  refine ⟨{ d with mem := d.mem.set d.qBack (some v), qBack := (d.qBack + 1) % d.qSize }, ?_, ?_, rfl⟩
  · simp only [pushBack, ne_eq, hne, not_false_eq_true, if_true, hv, Res.bind_ok,
      constructAt_none hb, Res.pure_eq]
  · constructor
    · exact h.two
    · simp [h.len]
    · exact hf
    · simpa using hfit
    · simp [hnext]
    · intro i hi
      show (d.mem.set d.qBack (some v))[(d.qFront + i) % d.qSize]? = _
      rw [List.getElem?_set]
      by_cases e : i = l.length
      · subst e
        rw [if_pos h.back_eq, if_pos]
        · simp
        · rw [h.back_eq, h.len]; exact ring_lt hf
      · rw [if_neg, h.cells i hi]
        · rw [List.getElem?_append]
          split
          · rfl
          · rw [List.getElem?_eq_none (by omega), List.getElem?_eq_none (by simp; omega)]
        · rw [h.back_eq]
          intro e2
          exact e (ring_inj hf h.fits hi e2).symm

/-- The relocation part of `push_expand`. -/
theorem expand_move {d : Deque α} {l : List α} (h : Repr d l) (hfull : l.length + 1 = d.qSize) :
    ∃ old' new', expandCopy d (allocate α (d.qSize * 2)) = .ok (old', new', d.qSize - 1) ∧
      new'.length = d.qSize * 2 ∧
      (∀ x, x < d.qSize → old'[x]? = some none) ∧
      old'.length = d.qSize ∧
      (∀ x, x < d.qSize * 2 → new'[x]? = some l[x]?) := by
  have hf := h.front_lt
  have hb := h.back_eq
  rw [ring_ix hf (by omega)] at hb
  unfold expandCopy
  have halloc : ∀ x, x < d.qSize * 2 → (allocate α (d.qSize * 2))[x]? = some none := by
    intro x hx; simp [allocate, hx]
  have hnone : ∀ x, l.length ≤ x → l[x]? = none := fun x hx => List.getElem?_eq_none hx
  by_cases h0 : d.qFront = 0
  · rw [if_pos h0]
    have hb' : d.qBack = l.length := by split at hb <;> omega
    obtain ⟨old', new', hr, hlo, hln, hso, hsn⟩ := moveLoop_spec l d.mem
      (allocate α (d.qSize * 2)) 0 0
      (by
        intro k hk
        have := h.cells k (by omega)
        rw [h0, Nat.zero_add, Nat.mod_eq_of_lt (by omega)] at this
        rw [Nat.zero_add]; exact this)
      (by intro k hk; rw [Nat.zero_add]; exact halloc k (by omega))
    refine ⟨old', new', ?_, by simpa [allocate] using hln, ?_, by rw [hlo, h.len], ?_⟩
    · rw [hb', hr]; congr 3; omega
    · intro x hx
      rw [hso x]
      split
      · rfl
      · have e : x = l.length := by omega
        have := h.cells x hx
        rw [h0, Nat.zero_add, Nat.mod_eq_of_lt hx] at this
        rw [this, hnone x (by omega)]
    · intro x hx
      rw [hsn x]
      split
      · simp
      · rw [halloc x hx, hnone x (by omega)]
  · rw [if_neg h0]
    have hb' : d.qBack = d.qFront - 1 := by split at hb <;> omega
    -- first part: the elements from q_front to the end
    obtain ⟨old1, new1, hr1, hlo1, hln1, hso1, hsn1⟩ := moveLoop_spec (l.take (d.qSize - d.qFront))
      d.mem (allocate α (d.qSize * 2)) d.qFront 0
      (by
        intro k hk
        simp only [List.length_take] at hk
        have := h.cells k (by omega)
        rw [Nat.mod_eq_of_lt (by omega)] at this
        rw [this, List.getElem?_take, if_pos (by omega)])
      (by
        intro k hk
        simp only [List.length_take] at hk
        rw [Nat.zero_add]; exact halloc k (by omega))
    have hlen1 : (l.take (d.qSize - d.qFront)).length = d.qSize - d.qFront := by
      simp only [List.length_take]; omega
    rw [hlen1] at hr1 hso1 hsn1
    obtain ⟨old2, new2, hr2, hlo2, hln2, hso2, hsn2⟩ := moveLoop_spec (l.drop (d.qSize - d.qFront))
      old1 new1 0 (d.qSize - d.qFront)
      (by
        intro k hk
        simp only [List.length_drop] at hk
        rw [hso1, if_neg (by omega)]
        have := h.cells (d.qSize - d.qFront + k) (by omega)
        rw [show d.qFront + (d.qSize - d.qFront + k) = k + d.qSize by omega,
          Nat.add_mod_right, Nat.mod_eq_of_lt (by omega)] at this
        rw [Nat.zero_add, this, List.getElem?_drop])
      (by
        intro k hk
        simp only [List.length_drop] at hk
        rw [hsn1, if_neg (by omega)]
        exact halloc _ (by omega))
    have hlen2 : (l.drop (d.qSize - d.qFront)).length = d.qBack := by
      simp only [List.length_drop]; omega
    rw [hlen2] at hr2 hso2 hsn2
    refine ⟨old2, new2, ?_, by rw [hln2, hln1]; simp [allocate], ?_, by rw [hlo2, hlo1, h.len], ?_⟩
    · rw [hr1]
      simp only [Res.bind_ok, Nat.zero_add]
      rw [hr2]; congr 3; omega
    · intro x hx
      rw [hso2 x]
      split
      · rfl
      · rw [hso1 x]
        split
        · rfl
        · have e : x = d.qFront - 1 := by omega
          rw [h.cell_abs x hx, if_neg (by omega), hnone _ (by omega)]
    · intro x hx
      rw [hsn2 x]
      split
      · rw [List.getElem?_drop]; congr 2; omega
      · rw [hsn1 x]
        split
        · simp only [Nat.sub_zero]
          rw [List.getElem?_take, if_pos (by omega)]
        · rw [halloc x hx, hnone x (by omega)]

theorem full_next {d : Deque α} {l : List α} (h : Repr d l) (hfull : l.length + 1 = d.qSize) :
    (d.qBack + 1) % d.qSize = d.qFront := by
  rw [h.back_eq, Nat.mod_add_mod, show d.qFront + l.length + 1 = d.qFront + d.qSize by omega,
    Nat.add_mod_right, Nat.mod_eq_of_lt h.front_lt]

/-- Growing push of a value outside the deque. -/
theorem push_grow_repr {d : Deque α} {l : List α} (h : Repr d l) (hfull : l.length + 1 = d.qSize)
    (v : α) :
    ∃ d', pushBack d (.ext v) = .ok d' ∧ Repr d' (l ++ [v]) ∧ d'.qSize = d.qSize * 2 := by
  obtain ⟨old', new', hmv, hln, _, _, hs⟩ := expand_move h hfull
  have htwo := h.two
  have hi : new'[d.qSize - 1]? = some none := by
    rw [hs _ (by omega), List.getElem?_eq_none (by omega)]
  refine ⟨{ mem := new'.set (d.qSize - 1) (some v), qFront := 0, qBack := d.qSize - 1 + 1,
            qSize := d.qSize * 2 }, ?_, ?_, rfl⟩
  · simp only [pushBack, full_next h hfull, ne_eq, not_true_eq_false, if_false, pushExpand]
    rw [hmv]
    simp [Arg.get, constructAt_none hi]
  · constructor
    · show 1 < d.qSize * 2
      omega
    · simpa using hln
    · show 0 < d.qSize * 2
      omega
    · simp only [List.length_append, List.length_cons, List.length_nil]; omega
    · simp only [List.length_append, List.length_cons, List.length_nil, Nat.zero_add]
      rw [Nat.mod_eq_of_lt (by omega)]; omega
    · intro i hi'
      simp only at hi' ⊢
      rw [Nat.zero_add, Nat.mod_eq_of_lt hi', List.getElem?_set]
      by_cases e : d.qSize - 1 = i
      · subst e
        rw [if_pos rfl, if_pos (by omega)]
        rw [List.getElem?_append_right (by omega)]
        simp [show d.qSize - 1 - l.length = 0 by omega]
      · rw [if_neg e, hs i hi', List.getElem?_append]
        split
        · rfl
        · rw [List.getElem?_eq_none (by omega), List.getElem?_eq_none (by simp; omega)]

/-- Growing push of a reference to an own element: undefined behaviour. -/
theorem push_grow_self {d : Deque α} {l : List α} (h : Repr d l) (hfull : l.length + 1 = d.qSize)
    (cell : Nat) : pushBack d (.self cell) = .ub := by
  obtain ⟨old', new', hmv, _, ho, hlo, _⟩ := expand_move h hfull
  simp only [pushBack, full_next h hfull, ne_eq, not_true_eq_false, if_false, pushExpand]
  rw [hmv]
  have : readAt old' cell = .ub := by
    unfold readAt
    by_cases hc : cell < d.qSize
    · rw [ho cell hc]
    · rw [List.getElem?_eq_none (by omega)]
  simp [Arg.get, this]

theorem push_repr {d : Deque α} {l : List α} (h : Repr d l) (v : α) :
    ∃ d', pushBack d (.ext v) = .ok d' ∧ Repr d' (l ++ [v]) := by
  have := h.fits
  by_cases hfit : l.length + 1 < d.qSize
  · obtain ⟨d', a, b, _⟩ := push_fit_repr h hfit (.ext v) v rfl
    exact ⟨d', a, b⟩
  · obtain ⟨d', a, b, _⟩ := push_grow_repr h (by omega) v
    exact ⟨d', a, b⟩

theorem pushAll_repr : ∀ (vs : List α) {d : Deque α} {l : List α}, Repr d l →
    ∃ d', pushBackAll d vs = .ok d' ∧ Repr d' (l ++ vs) := by
  intro vs
  induction vs with
  | nil => intro d l h; exact ⟨d, rfl, by simpa using h⟩
  | cons v vs ih =>
    intro d l h
    obtain ⟨d1, h1, r1⟩ := push_repr h v
    obtain ⟨d2, h2, r2⟩ := ih r1
    refine ⟨d2, by simp [pushBackAll, h1, h2], by simpa using r2⟩

theorem clear_repr {d : Deque α} {l : List α} (h : Repr d l) :
    ∃ d', clear d = .ok d' ∧ Repr d' [] ∧ d'.qSize = d.qSize := by
  have hf := h.front_lt
  have hl := h.fits
  have key : ∀ m, m.length = d.qSize → (∀ x, x < d.qSize → m[x]? = some none) →
      Repr ({ d with mem := m, qFront := 0, qBack := 0 } : Deque α) ([] : List α) := by
    intro m hm hc
    constructor
    · exact h.two
    · exact hm
    · show 0 < d.qSize
      omega
    · show 0 < d.qSize
      omega
    · simp
    · intro i hi
      show m[(0 + i) % d.qSize]? = _
      rw [hc _ (Nat.mod_lt _ (by omega))]; simp
  have hsome : ∀ k, k < l.length → ∃ v, l[k]? = some v := fun k hk => ⟨l[k], by simp [hk]⟩
  have hb := h.back_eq
  rw [ring_ix hf (by omega)] at hb
  rcases hE : l with _ | ⟨a, t⟩
  · -- empty
    have he : empty d = true := by rw [empty_repr h, hE]; rfl
    refine ⟨_, by simp only [clear, clearCells, he]; rfl, key d.mem h.len ?_, rfl⟩
    intro x hx
    rw [h.cell_abs x hx, hE]; simp
  · have he : empty d = false := by rw [empty_repr h, hE]; rfl
    have hpos : 0 < l.length := by rw [hE]; simp
    by_cases hw : d.qFront + l.length < d.qSize
    · -- not wrapped
      rw [if_pos hw] at hb
      obtain ⟨m', hr, hml, hms⟩ := destroyLoop_spec (d.qBack - d.qFront) d.mem d.qFront (by
        intro k hk
        obtain ⟨v, hv⟩ := hsome k (by omega)
        refine ⟨v, ?_⟩
        have := h.cells k (by omega)
        rw [Nat.mod_eq_of_lt (by omega), hv] at this; exact this)
      refine ⟨{ d with mem := m', qFront := 0, qBack := 0 }, ?_, key m' (by rw [hml, h.len]) ?_, rfl⟩
      · simp only [clear, clearCells, he, Bool.not_false, if_true, if_pos (show d.qBack > d.qFront by omega), hr,
          Res.bind_ok, if_neg (show ¬ d.qBack < d.qFront by omega), Res.pure_eq]
      · intro x hx
        rw [hms x]
        split
        · rfl
        · rw [h.cell_abs x hx, List.getElem?_eq_none (by split <;> omega)]
    · rw [if_neg hw] at hb
      obtain ⟨m1, hr1, hml1, hms1⟩ := destroyLoop_spec (d.qSize - d.qFront) d.mem d.qFront (by
        intro k hk
        obtain ⟨v, hv⟩ := hsome k (by omega)
        refine ⟨v, ?_⟩
        have := h.cells k (by omega)
        rw [Nat.mod_eq_of_lt (by omega), hv] at this; exact this)
      obtain ⟨m2, hr2, hml2, hms2⟩ := destroyLoop_spec d.qBack m1 0 (by
        intro k hk
        obtain ⟨v, hv⟩ := hsome (d.qSize - d.qFront + k) (by omega)
        refine ⟨v, ?_⟩
        rw [hms1, if_neg (by omega)]
        have := h.cells (d.qSize - d.qFront + k) (by omega)
        rw [show d.qFront + (d.qSize - d.qFront + k) = k + d.qSize by omega,
          Nat.add_mod_right, Nat.mod_eq_of_lt (by omega), hv] at this
        rw [Nat.zero_add]; exact this)
      refine ⟨{ d with mem := m2, qFront := 0, qBack := 0 }, ?_,
        key m2 (by rw [hml2, hml1, h.len]) ?_, rfl⟩
      · simp only [clear, clearCells, he, Bool.not_false, if_true, if_neg (show ¬ d.qBack > d.qFront by omega), hr1,
          Res.bind_ok, if_pos (show d.qBack < d.qFront by omega), hr2, Res.pure_eq]
      · intro x hx
        rw [hms2 x]
        split
        · rfl
        · rw [hms1 x]
          split
          · rfl
          · rw [h.cell_abs x hx, List.getElem?_eq_none (by split <;> omega)]

theorem reserve_repr {d : Deque α} (h : Repr d ([] : List α)) {n : Nat} (hn : 0 < n)
    (hn2 : n < 2 ^ 64 - 1) :
    ∃ d', reserve d n = .ok d' ∧ Repr d' ([] : List α) ∧ d'.qSize = n + 1 := by
  obtain ⟨d', hd, hr, hq⟩ := mk_repr (α := α) (n := n + 1) (by omega)
  refine ⟨d', ?_, hr, hq⟩
  have he : empty d = true := by rw [empty_repr h]; rfl
  have hd' : d' = { mem := allocate α (n + 1), qFront := 0, qBack := 0, qSize := n + 1 } := by
    have : 1 < n + 1 := by omega
    simpa [mk', this, eq_comm, hn] using hd
  simp only [reserve, he, Res.require_true, Res.bind_ok]
  rw [show decide (n > 0 ∧ n < 2 ^ 64 - 1) = true from decide_eq_true ⟨hn, hn2⟩]
  simp [hd']

end Verif.Deque
