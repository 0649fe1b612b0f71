import Verif.Quantile.Lemmas

/-! # Collapsing and adding -/

namespace Verif.Quantile

open Verif

variable {V : Type} [LinearOrder V]

abbrev srt (l : List V) : List V := l.insertionSort (· ≤ ·)

theorem srt_pairwise (l : List V) : (srt l).Pairwise (· ≤ ·) := List.pairwise_insertionSort ..
theorem srt_perm (l : List V) : (srt l).Perm l := List.perm_insertionSort ..
theorem srt_length (l : List V) : (srt l).length = l.length := List.length_insertionSort ..
theorem srt_eq {l : List V} (h : l.Pairwise (· ≤ ·)) : srt l = l := List.Pairwise.insertionSort_eq h

theorem cells_map : ∀ l : List V, cells (l.map some) = .ok l
  | [] => rfl
  | v :: l => by simp [cells, cells_map l]

theorem sortSlot_ok {x : Slot V} {l : List V} {r : List (Option V)} (h : x.buf = some (l.map some ++ r)) {m : Nat} (hm : m = l.length) :
    sortSlot x m = .ok { x with buf := some ((srt l).map some ++ r), sorted := true } := by
  subst hm
  have h1 : (l.map some ++ r).take l.length = l.map some := by rw [List.take_append_of_le_length (by simp)]; simp
  have h2 : (l.map some ++ r).drop l.length = r := by rw [List.drop_append_of_le_length (by simp)]; simp
  simp only [sortSlot, h, nonNull, Res.bind_ok, sortBuf, List.length_append, List.length_map, h1, h2, cells_map]
  rw [if_pos (by omega)]
  rfl

theorem sortSlot_full {x : Slot V} {l : List V} (h : x.buf = some (l.map some)) {k : Nat} (hk : l.length = k) :
    sortSlot x k = .ok { x with buf := some ((srt l).map some), sorted := true } := by
  have := sortSlot_ok (x := x) (l := l) (r := []) (by simpa using h) hk.symm
  simpa using this

/-- Contents, weight and level of a full buffer. -/
structure Buf (V : Type) where
  vals : List V
  wt : Nat
  lev : Nat

/-- A full buffer as described by `d`. -/
structure IsFull (k : Nat) (x : Slot V) (d : Buf V) : Prop where
  buf : x.buf = some (d.vals.map some)
  len : d.vals.length = k
  flag : x.sorted = true
  sorted : d.vals.Pairwise (· ≤ ·)
  weight : x.weight = d.wt
  pos : 0 < d.wt
  level : x.level = d.lev

/-- The buffer being filled. -/
structure IsLast (k : Nat) (x : Slot V) (l : List V) (lv : Nat) : Prop where
  buf : ∃ r, x.buf = some (l.map some ++ r) ∧ l.length + r.length = k
  sorted : x.sorted = true → l.Pairwise (· ≤ ·)
  weight : x.weight = 1
  level : x.level = lv

/-- The sizes are as `init` demands. -/
structure Base (s : Sk V) : Prop where
  two : 1 < s.slots.length
  ten : 10 ≤ s.size
  room : s.slots.length ≤ s.size
  int : s.size < 2147483648
  bufs : ∀ x ∈ s.slots, (∀ b, x.buf = some b → b.length = s.size) ∧ (x.buf = none → s.lazy = true)

/-- What the buffers hold: the full ones and the one being filled. -/
def Shape (s : Sk V) (bs : List (Buf V)) (last : List V) : Prop :=
  Base s ∧
  ((s.cur1 = 0 ∧ s.pos = s.size + 1 ∧ bs = [] ∧ last = []) ∨
   (s.cur1 = bs.length + 1 ∧ s.pos = last.length ∧
    ∃ fs x rest lv, s.slots = fs ++ x :: rest ∧ List.Forall₂ (IsFull s.size) fs bs ∧ IsLast s.size x last lv ∧
      (rest = [] → ∃ gs d, bs = gs ++ [d] ∧ d.lev = lv) ∧ (rest ≠ [] → lv = 0)))

/-- The stored values with their weights. -/
def flat (bs : List (Buf V)) : List (V × Nat) := bs.flatMap fun d => d.vals.map fun v => (v, d.wt)

def contents (bs : List (Buf V)) (last : List V) : List (V × Nat) := flat (bs ++ [⟨last, 1, 0⟩])

theorem flat_append (a b : List (Buf V)) : flat (a ++ b) = flat a ++ flat b := by simp [flat]

theorem rk_map (p : V → Bool) (w : Nat) : ∀ l : List V, rk p (l.map fun v => (v, w)) = w * l.countP p
  | [] => by simp [rk]
  | v :: l => by
    have := rk_map p w l
    simp only [rk, List.map_cons, List.sum_cons, List.countP_cons] at this ⊢
    rw [this]
    split <;> ring

theorem rk_flat (p : V → Bool) : ∀ bs : List (Buf V), rk p (flat bs) = (bs.map fun d => d.wt * d.vals.countP p).sum
  | [] => rfl
  | d :: bs => by
    have e : flat (d :: bs) = d.vals.map (fun v => (v, d.wt)) ++ flat bs := by simp [flat]
    rw [e, rk_append, rk_map, rk_flat p bs]; simp

theorem mem_flat {bs : List (Buf V)} {v : V} {w : Nat} : (v, w) ∈ flat bs ↔ ∃ d ∈ bs, v ∈ d.vals ∧ d.wt = w := by
  simp only [flat, List.mem_flatMap, List.mem_map, Prod.mk.injEq]
  constructor
  · rintro ⟨d, hd, a, ha, rfl, rfl⟩; exact ⟨d, hd, ha, rfl⟩
  · rintro ⟨d, hd, hv, rfl⟩; exact ⟨d, hd, v, hv, rfl, rfl⟩

/-! ## The parts of `collapse` -/

theorem findFirst_spec (slots : List (Slot V)) : ∀ m, m < slots.length →
    findFirst slots m ≤ m ∧ (∀ i, findFirst slots m ≤ i → i ≤ m → (slots[i]?.map (·.level)) = (slots[m]?.map (·.level)))
  | 0, _ => ⟨Nat.le_refl _, fun i _ h => by rw [Nat.le_zero.1 h]⟩
  | m + 1, h => by
    obtain ⟨h1, h2⟩ := findFirst_spec slots m (by omega)
    rw [findFirst]
    split
    · exact ⟨Nat.le_refl _, fun i h3 h4 => by rw [Nat.le_antisymm h4 h3]⟩
    · next he =>
      have he := not_not.1 he
      refine ⟨by omega, fun i h3 h4 => ?_⟩
      rcases Nat.lt_or_ge m i with h5 | h5
      · rw [show i = m + 1 by omega]
      · rw [h2 i h3 h5, he]

theorem collapseSort_ok {k n : Nat} (hnk : n ≤ k) {x : Slot V} {last : List V} {lv : Nat} (hx : IsLast k x last lv) (hl : last.length = k) :
    ∀ (gs : List (Slot V)) (ds : List (Buf V)) (i : Nat), List.Forall₂ (IsFull k) gs ds → i + gs.length + 1 = n →
    collapseSort k n i (gs ++ [x]) = .ok (gs ++ [{ x with buf := some ((srt last).map some), sorted := true }])
  | [], [], i, _, hi => by
    obtain ⟨r, hb, hr⟩ := hx.buf
    have hr0 : r = [] := List.length_eq_zero_iff.1 (by omega)
    subst hr0
    rw [List.append_nil] at hb
    simp only [List.length_nil, Nat.add_zero] at hi
    simp only [List.nil_append, collapseSort, collapseSortOne]
    rw [hx.weight]
    simp only [Int.zero_lt_one, gt_iff_lt, decide_true, Res.require_true, Res.bind_ok]
    rw [if_pos (by omega)]
    cases hs : x.sorted with
    | true =>
      simp only [if_true, Res.pure_eq, Res.bind_ok]
      rw [srt_eq (hx.sorted hs), ← hb]
      have := hx.weight
      cases x; simp_all
    | false =>
      simp only [Bool.false_eq_true, if_false]
      rw [sortSlot_full hb hl]
      simp [hx.weight]
  | y :: gs, d :: ds, i, h, hi => by
    obtain ⟨h1, h2⟩ := List.forall₂_cons.1 h
    simp only [List.length_cons] at hi
    have ih := collapseSort_ok hnk hx hl gs ds (i + 1) h2 (by omega)
    have hw : (0 : Int) < y.weight := by rw [h1.weight]; exact_mod_cast h1.pos
    simp only [List.cons_append, collapseSort, collapseSortOne, hw, gt_iff_lt, decide_true, Res.require_true, Res.bind_ok]
    rw [if_pos (by omega), h1.flag]
    simp only [if_true, Res.pure_eq, Res.bind_ok]
    rw [ih]
    rfl

/-- The full buffers as functions of the buffer number. -/
def dv (ds : List (Buf V)) (i : Nat) : List V := (ds[i]?.getD ⟨[], 0, 0⟩).vals
def dw (ds : List (Buf V)) (i : Nat) : Nat := (ds[i]?.getD ⟨[], 0, 0⟩).wt

theorem full_of_forall {k f : Nat} {slots : List (Slot V)} {ds : List (Buf V)} (h : List.Forall₂ (IsFull k) slots ds) :
    Full slots k f ds.length (dv ds) (dw ds) := by
  intro i _ hi
  have hl := h.length_eq
  have hi' : i < slots.length := by omega
  have hf : IsFull k slots[i] ds[i] := (List.forall₂_iff_get.1 h).2 i hi' hi
  refine ⟨slots[i], List.getElem?_eq_getElem hi', ?_⟩
  have e : ds[i]? = some ds[i] := List.getElem?_eq_getElem hi
  simp only [dv, dw, e, Option.getD_some]
  exact ⟨hf.buf, hf.len, hf.sorted, hf.weight, hf.pos⟩

theorem sum_range' {ds : List (Buf V)} (g : Buf V → Nat) : ∀ (m f : Nat), f + m = ds.length →
    ((List.range' f m).map fun i => g (ds[i]?.getD ⟨[], 0, 0⟩)).sum = ((ds.drop f).map g).sum
  | 0, f, h => by
    have : ds.drop f = [] := List.drop_eq_nil_of_le (by omega)
    rw [this]; rfl
  | m + 1, f, h => by
    rw [List.range'_succ, List.map_cons, List.sum_cons, sum_range' g m (f + 1) (by omega),
      List.drop_eq_getElem_cons (show f < ds.length by omega), List.map_cons, List.sum_cons]
    rw [List.getElem?_eq_getElem (show f < ds.length by omega)]; rfl

theorem sum_mul_left (k : Nat) : ∀ ds : List (Buf V), (ds.map fun d => k * d.wt).sum = k * (ds.map (·.wt)).sum
  | [] => rfl
  | d :: ds => by simp only [List.map_cons, List.sum_cons, sum_mul_left k ds, Nat.mul_add]

theorem fillQueue_ok (c : Consts V) {slots : List (Slot V)} {k f n : Nat} {vals : Nat → List V} {wt : Nat → Nat} (hF : Full slots k f n vals wt) (hk : 0 < k)
    (hn : n < 2147483648) : ∀ (m i : Nat) (q : PQ.Q (V × Nat)) (s : List (V × Nat)), f ≤ i → i + m = n → q.size ≤ i →
    PQ.QR (fun a b : V × Nat => b.1 ≤ a.1) (c.zero, 0) q s →
    ∃ q' s', ∃ rem : List (Rem V), fillQueue c slots m i q = .ok q' ∧ PQ.QR (fun a b : V × Nat => b.1 ≤ a.1) (c.zero, 0) q' s' ∧
      s'.Perm (rem.map (fun r : Rem V => (r.2.1, r.1)) ++ s) ∧ rem.map (·.1) = List.range' i m ∧ ∀ r ∈ rem, vals r.1 = r.2.1 :: r.2.2
  | 0, i, q, s, _, _, _, hq => ⟨q, s, [], rfl, hq, List.Perm.refl _, rfl, by simp⟩
  | m + 1, i, q, s, hi, him, hqs, hq => by
    obtain ⟨x, hx, hb, hl, _⟩ := hF i hi (by omega)
    cases hv : vals i with
    | nil => rw [hv] at hl; simp at hl; omega
    | cons v tl =>
      have hc : cell slots i 0 = .ok v := cell_ok hF hi (by omega) (by rw [hv]; rfl)
      obtain ⟨q1, s1, e1, hq1, hs1⟩ := PQ.push_ok pair_importance hq (v, i) (by omega)
      have hsz : q1.size = q.size + 1 := by rw [← hq1.length, hs1.length_eq, List.length_cons, hq.length]
      obtain ⟨q', s', rem, e2, hq', hs', hr1, hr2⟩ := fillQueue_ok c hF hk hn m (i + 1) q1 s1 (by omega) (by omega) (by omega) hq1
      refine ⟨q', s', (i, v, tl) :: rem, ?_, hq', ?_, ?_, ?_⟩
      · rw [fillQueue, hc]
        simp only [Res.bind_ok]
        rw [e1]
        simp only [Res.bind_ok]
        exact e2
      · refine hs'.trans ((List.Perm.append_left _ hs1).trans ?_)
        rw [List.map_cons]
        exact List.perm_middle
      · rw [List.map_cons, hr1, List.range'_succ]
      · intro r hr
        rcases List.mem_cons.1 hr with rfl | hr
        · exact hv
        · exact hr2 r hr

theorem totalWeight_full {k : Nat} : ∀ {xs : List (Slot V)} {ds : List (Buf V)}, List.Forall₂ (IsFull k) xs ds →
    totalWeight xs = (((ds.map (·.wt)).sum : Nat) : Int)
  | [], [], _ => rfl
  | x :: xs, d :: ds, h => by
    obtain ⟨h1, h2⟩ := List.forall₂_cons.1 h
    have := totalWeight_full h2
    simp only [totalWeight, List.map_cons, List.sum_cons] at this ⊢
    rw [this, h1.weight]; push_cast; rfl

theorem nextOffset_ok (W : Nat) (hW : 2 ≤ W) (e : Bool) : ∃ off : Nat, (nextOffset (W : Int) e).1 = (off : Int) ∧ 1 ≤ off ∧ off ≤ W := by
  unfold nextOffset
  split
  · next h =>
    cases e
    · refine ⟨(W + 2) / 2, ?_, by omega, by omega⟩
      simp only [Bool.false_eq_true, if_false]; omega
    · refine ⟨W / 2, ?_, by omega, by omega⟩
      simp only [if_true]; omega
  · exact ⟨(W + 1) / 2, by simp only; omega, by omega, by omega⟩

/-- All buffers once the last is full and sorted. -/
def allOf (bs : List (Buf V)) (last : List V) (lv : Nat) : List (Buf V) := bs ++ [⟨srt last, 1, lv⟩]

def wsum (ds : List (Buf V)) : Nat := (ds.map (·.wt)).sum

def wrk (p : V → Bool) (ds : List (Buf V)) : Nat := (ds.map fun d => d.wt * d.vals.countP p).sum

/-- The state after `collapse` from buffer `f`, whose level is `lv`. -/
def collapsed (s : Sk V) (fs : List (Slot V)) (x : Slot V) (last : List V) (f W off : Nat) (lv : Nat) (out : List V) : Sk V :=
  { s with
    slots := fs.take f ++ ⟨some (out.map some), (W : Int), (lv : Int) + 1, true⟩ ::
      (((fs.drop f ++ [{ x with buf := some ((srt last).map some), sorted := true }]).drop 1).map
        (fun y : Slot V => { y with weight := -1, level := -1, sorted := false }))
    cur1 := f + 2
    evenLow := (nextOffset (W : Int) s.evenLow).2
    lo := s.lo + (off - 1)
    hi := s.hi + (W - off) }

/-- What `collapse` computes from full buffers `fs` and a full last buffer `x`: everything from `f` on becomes one buffer. -/
theorem collapse_ok (c : Consts V) (s : Sk V) (hB : Base s) {fs : List (Slot V)} {x : Slot V} {bs : List (Buf V)} {last : List V}
    (hslots : s.slots = fs ++ [x]) (hfs : List.Forall₂ (IsFull s.size) fs bs) {lv : Nat} (hx : IsLast s.size x last lv) (hl : last.length = s.size)
    (hlev : ∃ (gs : List (Buf V)) (d : Buf V), bs = gs ++ [d] ∧ d.lev = lv) (hcount : s.count < 100000000000000) :
    ∃ (f : Nat) (out : List V) (off : Nat), f < fs.length ∧ (∀ d ∈ bs.drop f, d.lev = lv) ∧
      (∀ g d, f = g + 1 → bs[g]? = some d → d.lev ≠ lv) ∧
      (nextOffset (wsum ((allOf bs last lv).drop f) : Int) s.evenLow).1 = (off : Int) ∧
      Merged s.size (wsum ((allOf bs last lv).drop f)) off (fun p => wrk p ((allOf bs last lv).drop f)) out ∧
      (∀ v ∈ out, ∃ d ∈ bs ++ [⟨last, 1, 0⟩], v ∈ d.vals) ∧
      1 ≤ off ∧ off ≤ wsum ((allOf bs last lv).drop f) ∧
      collapse c s = .ok (collapsed s fs x last f (wsum ((allOf bs last lv).drop f)) off lv out) := by
  have hlen : s.slots.length = fs.length + 1 := by rw [hslots]; simp
  have hbl : bs.length = fs.length := hfs.length_eq.symm
  obtain ⟨bs0, d0, hbs0, hd0⟩ := hlev
  obtain ⟨gs, y0, hgs, hy0⟩ : ∃ gs y, fs = gs ++ [y] ∧ y.level = x.level := by
    have hne : fs ≠ [] := by
      rintro rfl
      rw [hbs0] at hbl; simp at hbl
    refine ⟨fs.dropLast, fs.getLast hne, (List.dropLast_append_getLast hne).symm, ?_⟩
    have h := (List.forall₂_iff_get.1 hfs).2 (fs.length - 1) (by have := List.length_pos_iff.2 hne; omega) (by have := List.length_pos_iff.2 hne; omega)
    have h' := h.level
    rw [List.getLast_eq_getElem, hx.level, ← hd0]
    have e : bs.get ⟨fs.length - 1, by have := List.length_pos_iff.2 hne; omega⟩ = d0 := by
      have : fs.length - 1 = bs0.length := by rw [← hbl, hbs0]; simp
      simp [hbs0, this]
    rw [e] at h'
    exact h'
  have hn := hB.two
  have hroom := hB.room
  obtain ⟨hf1, hf2⟩ := findFirst_spec s.slots (s.slots.length - 1) (by omega)
  have hlast : s.slots[s.slots.length - 1]? = some x := by
    rw [hlen, Nat.add_sub_cancel, hslots, List.getElem?_append_right (Nat.le_refl _)]; simp
  -- the first buffer is not the last one
  have hlt : findFirst s.slots (s.slots.length - 1) < fs.length := by
    obtain ⟨m, hm⟩ : ∃ m, s.slots.length - 1 = m + 1 := ⟨s.slots.length - 2, by omega⟩
    have hmfs : m + 1 = fs.length := by omega
    have hml : m < s.slots.length := by omega
    rw [hm, findFirst, if_neg]
    · have := (findFirst_spec s.slots m hml).1
      omega
    · rw [not_not, ← hm, hlast]
      have hmg : m = gs.length := by rw [hgs] at hmfs; simpa using hmfs
      have : s.slots[m]? = some y0 := by rw [hslots, hgs, hmg]; simp
      rw [this, Option.map_some, Option.map_some, hy0]
  have hprev : ∀ g, findFirst s.slots (s.slots.length - 1) = g + 1 → (s.slots[g]?.map (·.level)) ≠ (s.slots[g + 1]?.map (·.level)) := by
    intro g
    generalize s.slots.length - 1 = M
    induction M with
    | zero => intro h; rw [findFirst] at h; omega
    | succ M ih =>
      intro h
      rw [findFirst] at h
      split at h
      · next hne =>
        have : M = g := by omega
        subst this; exact hne
      · exact ih h
  generalize hf : findFirst s.slots (s.slots.length - 1) = f at hf1 hf2 hlt hprev
  set x' : Slot V := { x with buf := some ((srt last).map some), sorted := true } with hx'
  have hxf : IsFull s.size x' ⟨srt last, 1, lv⟩ :=
    ⟨rfl, by rw [srt_length]; exact hl, rfl, srt_pairwise last, hx.weight, Nat.one_pos, hx.level⟩
  have hall : List.Forall₂ (IsFull s.size) (fs ++ [x']) (allOf bs last lv) := List.rel_append hfs (List.Forall₂.cons hxf List.Forall₂.nil)
  have hdslen : (allOf bs last lv).length = s.slots.length := by rw [hlen, allOf, List.length_append, hbl]; rfl
  have hdrop : (fs ++ [x']).drop f = fs.drop f ++ [x'] := List.drop_append_of_le_length (by omega)
  have htake : (fs ++ [x']).take f = fs.take f := List.take_append_of_le_length (by omega)
  have hdf : List.Forall₂ (IsFull s.size) (fs.drop f ++ [x']) ((allOf bs last lv).drop f) := by
    rw [← hdrop]; exact List.forall₂_drop f hall
  have hslotsf : s.slots.take f ++ (fs.drop f ++ [x']) = fs ++ [x'] := by
    rw [hslots, List.take_append_of_le_length (by omega), ← List.append_assoc, List.take_append_drop]
  have htk : s.slots.take f = fs.take f := by rw [hslots, List.take_append_of_le_length (by omega)]
  have hxslen : (fs.drop f ++ [x']).length = s.slots.length - f := by simp; omega
  set ds := allOf bs last lv with hds
  set W := wsum (ds.drop f) with hW
  have hF : Full (fs ++ [x']) s.size f s.slots.length (dv ds) (dw ds) := by rw [← hdslen]; exact full_of_forall hall
  -- the weights
  have hfn : f + (s.slots.length - f) = ds.length := by omega
  have hw2 : ((List.range' f (s.slots.length - f)).map (dw ds)).sum = W := sum_range' (fun d => d.wt) _ f hfn
  have hwW : ∀ i, f ≤ i → i < s.slots.length → dw ds i ≤ W := by
    intro i h1 h2
    rw [← hw2]
    exact List.single_le_sum (fun _ _ => Nat.zero_le _) _ (List.mem_map_of_mem (List.mem_range'_1.2 ⟨h1, by omega⟩))
  have hW2 : 2 ≤ W := by
    have h1 : ds.drop f = bs.drop f ++ [⟨srt last, 1, lv⟩] := List.drop_append_of_le_length (by omega)
    have h2 : f < bs.length := by omega
    have h3 : 0 < (bs[f]).wt := by
      have := (List.forall₂_iff_get.1 hfs).2 f hlt h2
      exact this.pos
    rw [hW, wsum, h1, List.drop_eq_getElem_cons h2]
    simp only [List.map_append, List.sum_append, List.map_cons, List.sum_cons, List.map_nil, List.sum_nil]
    omega
  obtain ⟨off, hoff, ho1, ho2⟩ := nextOffset_ok W hW2 s.evenLow
  -- the queue
  have hqn : PQ.QR (fun a b : V × Nat => b.1 ≤ a.1) (c.zero, 0) (PQ.new (c.zero, 0) (fs ++ [x']).length) [] :=
    PQ.QR.new pair_importance (c.zero, 0) (fs ++ [x']).length (by simp)
  obtain ⟨q, sq, rem, eq, hq, hsq, hr1, hr2⟩ := fillQueue_ok c hF (by have := hB.ten; omega) (by have := hB.int; omega) (s.slots.length - f) f
    (PQ.new (c.zero, 0) (fs ++ [x']).length) [] (Nat.le_refl _) (by omega) (Nat.zero_le _) hqn
  rw [List.append_nil] at hsq
  set A : (V → Bool) → Nat := fun p => wrk p (ds.drop f) with hA
  have hrk : ∀ p, restRk (dw ds) p rem = A p := by
    intro p
    have : restRk (dw ds) p rem = ((rem.map (·.1)).map fun i => dw ds i * (dv ds i).countP p).sum := by
      unfold restRk
      rw [List.map_map]
      refine congrArg List.sum (List.map_congr_left fun r hr => ?_)
      simp only [Function.comp, hr2 r hr]
    rw [this, hr1]
    exact sum_range' (fun d => d.wt * d.vals.countP p) _ f hfn
  have hvl : ∀ i, f ≤ i → i < s.slots.length → (dv ds i).length = s.size := fun i h1 h2 => by
    obtain ⟨_, _, _, h, _⟩ := hF i h1 h2; exact h
  have hlen' : restLen rem = (s.slots.length - f) * s.size := by
    have : restLen rem = ((rem.map (·.1)).map fun i => (dv ds i).length).sum := by
      unfold restLen
      rw [List.map_map]
      refine congrArg List.sum (List.map_congr_left fun r hr => ?_)
      simp only [Function.comp, hr2 r hr, List.length_cons]
    rw [this, hr1]
    have h2 : ((List.range' f (s.slots.length - f)).map fun i => (dv ds i).length) = (List.range' f (s.slots.length - f)).map fun _ => s.size :=
      List.map_congr_left fun i hi => by
        have := List.mem_range'_1.1 hi
        exact hvl i this.1 (by omega)
    rw [h2]
    simp
  have htot : A (fun _ => true) = s.size * W := by
    have : ∀ d ∈ ds.drop f, d.vals.length = s.size := by
      intro d hd
      obtain ⟨i, hi, rfl⟩ := List.getElem_of_mem hd
      have h1 := (List.forall₂_iff_get.1 hdf).2 i (by rw [hdf.length_eq]; exact hi) hi
      exact h1.len
    show ((ds.drop f).map fun d => d.wt * d.vals.countP fun _ => true).sum = _
    have h2 : ((ds.drop f).map fun d => d.wt * d.vals.countP fun _ => true) = ((ds.drop f).map fun d => s.size * d.wt) :=
      List.map_congr_left fun d hd => by
        have : d.vals.countP (fun _ => true) = s.size := by rw [List.countP_eq_length.2 (fun _ _ => rfl), this d hd]
        rw [this, Nat.mul_comm]
    rw [h2, hW, wsum, sum_mul_left]
  have hAle : ∀ p, A p ≤ A (fun _ => true) := by
    intro p
    refine List.sum_le_sum fun d _ => Nat.mul_le_mul_left _ ?_
    exact List.countP_mono_left fun _ _ _ => rfl
  obtain ⟨out, em, hM, hmem⟩ := mergeLoop_ok c hF hroom hwW ho1 ho2 A htot hAle ((s.slots.length - f) * s.size + 1) rem q sq (List.replicate s.size 0) [] []
    hq hsq ⟨fun r hr => by
        have : r.1 ∈ List.range' f (s.slots.length - f) := by rw [← hr1]; exact List.mem_map_of_mem hr
        have := List.mem_range'_1.1 this
        omega, fun r hr => ⟨0, by
          have : r.1 ∈ List.range' f (s.slots.length - f) := by rw [← hr1]; exact List.mem_map_of_mem hr
          have := List.mem_range'_1.1 this
          rw [List.getElem?_replicate, if_pos (by omega)], by rw [List.drop_zero]; exact hr2 r hr⟩,
      by rw [hr1]; exact List.nodup_range'⟩ (by simp) (by omega)
    ⟨List.Pairwise.nil, by simp, by simp, fun p _ => by simp [rk]⟩ (by simp) (fun p => by rw [hrk p]; simp [rk]) (by simp) (by simp)
  obtain ⟨y, hy⟩ : ∃ y, fs[f]? = some y := ⟨fs[f], List.getElem?_eq_getElem hlt⟩
  have hyb : IsFull s.size y bs[f] := by
    have h := (List.forall₂_iff_get.1 hfs).2 f hlt (by omega)
    have : fs[f] = y := by rw [List.getElem?_eq_getElem hlt] at hy; exact Option.some.inj hy
    rw [← this]; exact h
  have hslf : s.slots[f]? = some y := by rw [hslots, List.getElem?_append_left hlt]; exact hy
  have hlevs : ∀ i, f ≤ i → i ≤ s.slots.length - 1 → (s.slots[i]?.map (·.level)) = some x.level := fun i h1 h2 => by
    rw [hf2 i h1 h2, hlast]; rfl
  have hxy : x.level = y.level := by
    have := hlevs f (Nat.le_refl _) hf1
    rw [hslf, Option.map_some, Option.some.injEq] at this
    exact this.symm
  refine ⟨f, out, off, hlt, ?_, ?_, hoff, hM, ?_, ho1, ho2, ?_⟩
  · intro z hz
    obtain ⟨i, hi, rfl⟩ := List.getElem_of_mem hz
    rw [List.length_drop] at hi
    have := hlevs (f + i) (by omega) (by omega)
    rw [hslots, List.getElem?_append_left (by omega), List.getElem?_eq_getElem (by omega), Option.map_some, Option.some.injEq] at this
    have h := ((List.forall₂_iff_get.1 hfs).2 (f + i) (by omega) (by omega)).level
    rw [List.getElem_drop]
    have h2 := hx.level
    simp only [List.get_eq_getElem] at h
    omega
  · intro g d hg hd he
    apply hprev g hg
    have hgl : g < bs.length := by omega
    have h := ((List.forall₂_iff_get.1 hfs).2 g (by omega) hgl).level
    rw [← hg, hslf, hslots, List.getElem?_append_left (by omega), List.getElem?_eq_getElem (by omega), Option.map_some, Option.map_some]
    rw [List.getElem?_eq_getElem hgl, Option.some.injEq] at hd
    have h2 := hx.level
    simp only [List.get_eq_getElem] at h
    rw [hd] at h
    congr 1; omega
  · intro v hv
    obtain ⟨i, h1, h2, h3⟩ := hmem v hv
    have hi : i < ds.length := by omega
    have h4 : v ∈ (ds[i]).vals := by
      have : ds[i]? = some ds[i] := List.getElem?_eq_getElem hi
      simpa only [dv, this, Option.getD_some] using h3
    have h5 : ds[i] ∈ ds := List.getElem_mem hi
    rcases List.mem_append.1 h5 with h5 | h5
    · exact ⟨_, List.mem_append_left _ h5, h4⟩
    · rw [List.mem_singleton] at h5
      rw [h5] at h4
      exact ⟨⟨last, 1, 0⟩, by simp, (srt_perm last).mem_iff.1 h4⟩
  · unfold collapse collapseFindFirst
    simp only [hcount, decide_true, Res.require_true, Res.bind_ok, hf]
    have h1 : f + 1 < s.slots.length := by omega
    have h2 : PQ.rd s.slots f = .ok y := by simp [PQ.rd, hslf]
    have hyl : 0 ≤ y.level := by rw [hyb.level]; omega
    simp only [h1, decide_true, Res.require_true, Res.bind_ok, h2, hyl, ge_iff_le, Res.pure_eq]
    have h3 : s.slots.drop f = fs.drop f ++ [x] := by rw [hslots, List.drop_append_of_le_length (by omega)]
    have h4 := collapseSort_ok hroom hx hl (fs.drop f) (bs.drop f) f (List.forall₂_drop f hfs) (by rw [List.length_drop]; omega)
    rw [h3, h4]
    simp only [Res.bind_ok]
    rw [← hx', hslotsf, totalWeight_full hdf, ← wsum, ← hW, hxslen, eq]
    simp only [Res.bind_ok, hoff]
    have h5 : ((off : Int) - 1) = ((off - 1 + ([] : List V).length * W : Nat) : Int) := by simp; omega
    have h6 : (0 : Int) = (((([] : List (V × Nat)).map (·.2)).sum : Nat) : Int) := rfl
    rw [h5]
    conv => lhs; rw [h6]
    rw [em]
    simp only [Res.bind_ok]
    have h7 : (((off - 1 + s.size * W : Nat) : Int) / (W : Int)) = (s.size : Int) := by
      rw [← Int.natCast_ediv]
      congr 1
      rw [Nat.add_mul_div_right _ _ (by omega), Nat.div_eq_of_lt (by omega)]; omega
    rw [h7]
    simp only [decide_true, Res.require_true, Res.bind_ok]
    have h8 : PQ.rd (fs ++ [x']) f = .ok y := by
      simp [PQ.rd, List.getElem?_append_left hlt, hy]
    rw [h8]
    simp only [Res.bind_ok, hyb.buf, nonNull, List.length_map, hyb.len, if_true, Res.pure_eq]
    rw [htk]
    have h9 : ((↑(off - 1 + ([] : List V).length * W) : Int)).toNat = off - 1 := by simp
    have h10 : ((W : Int) - (off : Int)).toNat = W - off := by omega
    rw [h9, h10, ← hxy, hx.level]
    rfl

end Verif.Quantile
