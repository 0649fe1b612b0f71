import Verif.Hash.Props

/-! # `HashTable`: chain statistics, the free list check and the raw data vector -/

namespace Verif.Hash

variable {α : Type}

/-- `chainLengthStats`, `HashTable.hpp:256-264`: the samples given to `stats.add`, in order. -/
def chainStatsLoop (t : Table α) : List (Option Nat) → Res (List Nat)
  | [] => .ok []
  | o :: os => do
    let n ← chainLen t (t.chains.length + 1) o
    let ns ← chainStatsLoop t os
    pure (n :: ns)

def chainLengthStats (t : Table α) : Res (List Nat) := chainStatsLoop t t.entry

/-- `verifyFreeListSize`, `HashTable.hpp:547-556`: the loop is that of a chain. -/
def verifyFreeListSize (t : Table α) : Res Bool := do
  let fls ← chainLen t (t.chains.length + 1) t.free
  Res.require (decide (fls = t.freeSize))
  pure true

/-- `unsafeGetRawDataVector`, `HashTable.hpp:541-544`. -/
def rawData (t : Table α) : Res (List (Entry α)) := do
  Res.require (dense t)
  pure t.chains

/-! ## Helper lemmas -/

theorem dense_iff {c : Cfg α} {t : Table α} {bs : List (List (Cell α))} {fl : List (Cell α)} (h : Inv c t bs fl) :
    dense t = true ↔ fl = [] := by
  have hf := h.free
  cases fl with
  | nil => simp only [IsChain] at hf; simp [dense, hf]
  | cons p ps => have := hf.1; simp [dense, this]

theorem chainStatsLoop_ok {c : Cfg α} {t : Table α} {bs : List (List (Cell α))} {fl : List (Cell α)} (h : Inv c t bs fl) :
    chainLengthStats t = .ok (bs.map List.length) := by
  have key : ∀ (os : List (Option Nat)) (ls : List (List (Cell α))), os.length = ls.length →
      (∀ (i : Nat) (l : List (Cell α)), ls[i]? = some l → ∃ o, os[i]? = some o ∧ IsChain t.chains o l ∧ l.length ≤ t.chains.length) →
      chainStatsLoop t os = .ok (ls.map List.length) := by
    intro os
    induction os with
    | nil => intro ls hl _; cases ls with | nil => rfl | cons _ _ => simp at hl
    | cons o os ih =>
      intro ls hl hc
      cases ls with
      | nil => simp at hl
      | cons l ls =>
        obtain ⟨o', ho, hch, hle⟩ := hc 0 l rfl
        simp only [List.getElem?_cons_zero, Option.some.injEq] at ho
        subst ho
        have := ih ls (by simpa using hl) (fun i l hi => by simpa using hc (i + 1) l (by simpa using hi))
        simp only [chainStatsLoop, chainLen_ok l o (t.chains.length + 1) hch (by omega), Res.bind_ok, this, Res.pure_eq, List.map_cons]
  refine key t.entry bs h.len.symm ?_
  intro i l hi
  obtain ⟨o, ho, hc⟩ := h.chain i l hi
  exact ⟨o, ho, hc, h.bucket_length hi⟩

/-- The cells whose hash falls on bucket `b` are exactly those of bucket `b`. -/
theorem count_bucket (f : Cell α → Nat) (b : Nat) : ∀ (bs : List (List (Cell α))) (k : Nat),
    (∀ (i : Nat) (l : List (Cell α)), bs[i]? = some l → ∀ p ∈ l, f p = i + k) → ∀ l, (k ≤ b) → bs[b - k]? = some l →
      (bs.flatten.filter fun p => decide (f p = b)).length = l.length := by
  have zero : ∀ (bs : List (List (Cell α))) (k : Nat), b < k →
      (∀ (i : Nat) (l : List (Cell α)), bs[i]? = some l → ∀ p ∈ l, f p = i + k) →
      (bs.flatten.filter fun p => decide (f p = b)) = [] := by
    intro bs k hk hi
    rw [List.filter_eq_nil_iff]
    intro p hp
    obtain ⟨l, hl, hpl⟩ := List.mem_flatten.mp hp
    obtain ⟨i, hi'⟩ := List.getElem?_of_mem hl
    have := hi i l hi' p hpl
    simp only [decide_eq_true_eq]
    omega
  intro bs
  induction bs with
  | nil => intro k _ l _ hg; simp at hg
  | cons x xs ih =>
    intro k hi l hk hg
    have hx := hi 0 x rfl
    have hxs : ∀ (i : Nat) (l : List (Cell α)), xs[i]? = some l → ∀ p ∈ l, f p = i + (k + 1) := by
      intro i l h p hp
      have := hi (i + 1) l (by simpa using h) p hp
      omega
    rw [List.flatten_cons, List.filter_append, List.length_append]
    rcases Nat.lt_or_ge k b with hlt | hge
    · have e : b - k = (b - (k + 1)) + 1 := by omega
      rw [e, List.getElem?_cons_succ] at hg
      rw [ih (k + 1) hxs l (by omega) hg]
      have : (x.filter fun p => decide (f p = b)) = [] := by
        rw [List.filter_eq_nil_iff]
        intro p hp
        have := hx p hp
        simp only [decide_eq_true_eq]
        omega
      rw [this]
      simp
    · have e : b - k = 0 := by omega
      rw [e, List.getElem?_cons_zero] at hg
      cases hg
      rw [zero xs (k + 1) (by omega) hxs]
      have : (x.filter fun p => decide (f p = b)) = x := by
        rw [List.filter_eq_self]
        intro p hp
        have := hx p hp
        simp only [decide_eq_true_eq]
        omega
      rw [this]
      simp

/-- The largest size so far, after a call that leaves `now` entries. -/
def newPeak (op : TOp α) (p now : Nat) : Nat :=
  match op with
  | .clear => 0
  | _ => max p now

/-- The largest `size()` since the table was made or last cleared. -/
def peak (c : Cfg α) : Table α → Nat → List (TOp α) → Res Nat
  | _, p, [] => .ok p
  | t, p, op :: ops => do
    let r ← tStep c t op
    peak c r.1 (newPeak op p (size r.1)) ops

/-- How one call changes the number of slots. -/
theorem step_slots {c : Cfg α} {t : Table α} {s : MultiSt α} {n : Nat} (law : Lawful c) (h : MR c t s n) (hf : Fits c n)
    (op : TOp α) (hno : ¬ MultiOver n s op) (t' : Table α) (o : TOut α) (e : tStep c t op = .ok (t', o)) :
    t'.chains.length = newPeak op t.chains.length (size t') := by
  obtain ⟨bs, fl, hi, hp⟩ := h.repr
  have hsz := size_ok hi
  have hcnt := hi.count
  have same : t'.chains.length = t.chains.length → t'.chains.length = max t.chains.length (size t') := by
    intro h1
    have : size t' ≤ t'.chains.length := by unfold size; omega
    omega
  have le : size t' ≤ t'.chains.length := by unfold size; omega
  have hadd : ∀ d t1 loc, s.items.length < n → add c t d = .ok (t1, loc) → t1.chains.length = max t.chains.length (size t1) := by
    intro d t1 loc hlt ea
    have hb := h.bound
    have hf2 := hf.1
    have hlen := hp.length_eq
    rw [List.length_map] at hlen
    obtain ⟨t2, loc2, bs', fl', e1, e2, e3, e4⟩ := add_ok law hi d
      (fun e => hf.2 _ (by rw [e, List.length_nil] at hcnt; omega)) (fun e => by rw [e, List.length_nil] at hcnt; omega)
    rw [ea] at e1
    cases e1
    have hs2 := size_ok e2
    have hc2 := e2.count
    have hl3 := e3.length_eq
    simp only [List.length_cons] at hl3
    rcases e4 with ⟨e4, e5⟩ | ⟨e4, e5⟩
    · subst e4; simp only [List.length_nil] at hcnt; omega
    · omega
  cases op with
  | add d =>
    simp only [tStep] at e
    rw [Res.bind_eq_ok] at e
    obtain ⟨q, e1, e⟩ := e
    rw [Res.bind_eq_ok] at e
    obtain ⟨v, e2, e⟩ := e
    cases e
    exact hadd d q.1 q.2 (by simp only [MultiOver] at hno; omega) e1
  | addOrReplace d =>
    simp only [tStep] at e
    rw [Res.bind_eq_ok] at e
    obtain ⟨q, e1, e⟩ := e
    rw [Res.bind_eq_ok] at e
    obtain ⟨v, e2, e⟩ := e
    cases e
    simp only [addOrReplace] at e1
    rw [Res.bind_eq_ok] at e1
    obtain ⟨r, e3, e1⟩ := e1
    cases r with
    | some loc => cases e1; exact same rfl
    | none =>
      simp only at e1
      rw [Res.bind_eq_ok] at e1
      obtain ⟨q2, e4, e1⟩ := e1
      cases e1
      exact hadd d q2.1 q2.2 (by simp only [MultiOver] at hno; omega) e4
  | clear =>
    simp only [tStep] at e
    cases e
    rfl
  | reserve want =>
    simp only [tStep, reserve] at e
    simp only [Res.bind_eq_ok] at e
    obtain ⟨q, ⟨u, hu, m, hm, hq⟩, e⟩ := e
    cases hq
    cases e
    exact same rfl
  | remove k m =>
    simp only [tStep] at e
    rw [Res.bind_eq_ok] at e
    obtain ⟨q, e1, e⟩ := e
    cases e
    rcases remove_ok law hi k m with ⟨_, e2⟩ | ⟨m1, p, m2, t2, _, _, _, e2, _, hl, _⟩
    · rw [e1] at e2
      cases m
      · simp only [Bool.false_eq_true, if_false] at e2
        cases e2
        exact same rfl
      · cases e2
    · rw [e1] at e2
      cases e2
      show t2.chains.length = max t.chains.length (size t2)
      have : size t2 ≤ t2.chains.length := by unfold size; omega
      omega
  | findErase k =>
    simp only [tStep] at e
    rw [Res.bind_eq_ok] at e
    obtain ⟨q, e1, e⟩ := e
    cases e
    simp only [findErase] at e1
    rw [Res.bind_eq_ok] at e1
    obtain ⟨it, e2, e1⟩ := e1
    obtain ⟨it', e3, hr⟩ := find_ok law hi k
    rw [e2] at e3
    cases e3
    rcases hr with ⟨rfl, _⟩ | ⟨before, p, rest, hrem, hk⟩
    · simp only [if_true] at e1
      cases e1
      exact same rfl
    · obtain ⟨t2, bs2, g1, g2, g3, g4⟩ := erase_ok hi hrem
      rw [if_neg (hrem.ne_end hi), g1] at e1
      cases e1
      show t2.chains.length = max t.chains.length (size t2)
      have : size t2 ≤ t2.chains.length := by unfold size; omega
      omega
  | lookup k =>
    simp only [tStep] at e
    simp only [Res.bind_eq_ok] at e
    obtain ⟨_, _, _, _, e⟩ := e
    cases e
    exact same rfl
  | size =>
    cases e
    exact same rfl
  | walk =>
    simp only [tStep] at e
    simp only [Res.bind_eq_ok] at e
    obtain ⟨_, _, e⟩ := e
    cases e
    exact same rfl
  | random a b =>
    simp only [tStep] at e
    simp only [Res.bind_eq_ok] at e
    obtain ⟨_, _, _, _, e⟩ := e
    cases e
    exact same rfl

/-! ## C190 -/

/-- C190. In every reachable state `chainLengthStats` ends, takes one sample for each of the `n`
entry points, and the `b`-th sample is the number of entries the walk shows whose hash is `b`
modulo `n`; the samples add up to `size()`; and the check of the free list passes. -/
theorem chain_stats {α : Type} (c : Cfg α) (law : Lawful c) (t : Table α) (h : Reaches c t) :
    ∃ l samples, walk t = .ok l ∧ chainLengthStats t = .ok samples ∧ samples.length = t.entry.length ∧
      (∀ b n, samples[b]? = some n → n = (l.filter fun x => decide (c.hash x % t.entry.length = b)).length) ∧
      samples.sum = size t ∧ verifyFreeListSize t = .ok true := by
  obtain ⟨s, n, hm⟩ := reaches_mr law h
  obtain ⟨bs, fl, hi, hp⟩ := hm.repr
  refine ⟨_, _, walk_ok hi, chainStatsLoop_ok hi, by rw [List.length_map, hi.len], ?_, ?_, ?_⟩
  · intro b n hb
    rw [List.getElem?_map] at hb
    cases hl : bs[b]? with
    | none => rw [hl] at hb; cases hb
    | some l =>
      rw [hl] at hb
      cases hb
      have := count_bucket (fun p => c.hash p.2 % t.entry.length) b bs 0 (fun i l h p hp => by simpa using hi.hash i l h p hp)
        l (by omega) (by simpa using hl)
      rw [← this, List.filter_map, List.length_map]
      rfl
  · rw [size_ok hi, List.length_flatten]
  · have hc := hi.count
    simp only [verifyFreeListSize, chainLen_ok fl t.free (t.chains.length + 1) hi.free (by omega), Res.bind_ok, hi.fsize, decide_true,
      Res.require_true, Res.pure_eq]

/-- C190. The raw vector is handed out exactly when the table is dense, that is when no entry was
removed whose place has not been filled again: exactly when `size()` is the largest it has been since
the table was made or cleared. Then the vector holds the stored entries, each once, and nothing else. -/
theorem raw_data {α : Type} (c : Cfg α) (law : Lawful c) (cap : Nat) (hf : Fits c cap) (ops : List (TOp α)) (hl : ops.length ≤ cap)
    (t : Table α) (h : tState c empty' ops = .ok t) :
    ∃ l p, walk t = .ok l ∧ peak c empty' 0 ops = .ok p ∧ size t ≤ p ∧
      (size t = p → ∃ raw, rawData t = .ok raw ∧ (raw.map (·.data)).Perm l) ∧
      (size t ≠ p → rawData t = .abort) := by
  have key : ∀ (ops : List (TOp α)) (t0 : Table α) (s : MultiSt α), MR c t0 s cap → s.items.length + ops.length ≤ cap →
      tState c t0 ops = .ok t → (∃ s n, MR c t s n) ∧ peak c t0 t0.chains.length ops = .ok t.chains.length := by
    intro ops
    induction ops with
    | nil =>
      intro t0 s h' _ hr
      simp only [tState] at hr
      injection hr with hr
      subst hr
      exact ⟨⟨s, cap, h'⟩, rfl⟩
    | cons op ops ih =>
      intro t0 s h hl hr
      simp only [List.length_cons] at hl
      simp only [tState] at hr
      rw [Res.bind_eq_ok] at hr
      obtain ⟨q, e, hr⟩ := hr
      have hno : ¬ MultiOver cap s op := by
        intro h1
        cases op <;> simp [MultiOver] at h1 <;> omega
      rcases mr_step law h hf op with h1 | ⟨_, e2⟩ | ⟨t', o, s', e2, h1, h2⟩
      · exact absurd h1 hno
      · rw [e2] at e; cases e
      · have hs := step_slots law h hf op hno t' o e2
        rw [e2] at e
        injection e with e
        subst e
        have hg : s'.items.length ≤ s.items.length + 1 := multi_growth h1
        have := ih t' s' h2 (by omega) hr
        refine ⟨this.1, ?_⟩
        simp only [peak, e2, Res.bind_ok]
        rw [← hs]
        exact this.2
  obtain ⟨⟨s, n, hm⟩, hpk⟩ := key ops empty' ⟨[], false⟩ (mr_empty c cap) (by simpa using hl) h
  obtain ⟨bs, fl, hi, hp⟩ := hm.repr
  have hsz := size_ok hi
  have hcnt := hi.count
  refine ⟨_, _, walk_ok hi, hpk, by omega, ?_, ?_⟩
  · intro he
    have hfl : fl = [] := List.length_eq_zero_iff.1 (by omega)
    refine ⟨t.chains, by simp [rawData, (dense_iff hi).mpr hfl], ?_⟩
    have hperm := hi.perm
    rw [hfl, List.map_nil, List.append_nil] at hperm
    have h1 : ∀ p ∈ bs.flatten, (t.chains[p.1]?).map (·.data) = some p.2 := by
      intro p hp
      obtain ⟨nx, hg⟩ := hi.get_data hp
      rw [hg]; rfl
    have h2 : (bs.flatten.map (·.2)) = (bs.flatten.map (·.1)).filterMap fun i => (t.chains[i]?).map (·.data) := by
      rw [List.filterMap_map]
      have : ∀ l : List (Cell α), (∀ p ∈ l, (t.chains[p.1]?).map (·.data) = some p.2) →
          l.map (·.2) = l.filterMap ((fun i => (t.chains[i]?).map (·.data)) ∘ fun p => p.1) := by
        intro l
        induction l with
        | nil => intro _; rfl
        | cons p ps ih =>
          intro h
          rw [List.filterMap_cons, List.map_cons, ih fun q hq => h q (by simp [hq])]
          show _ = (match (t.chains[p.1]?).map (·.data) with | none => _ | some b => b :: _)
          rw [h p (by simp)]
      exact this _ h1
    have h3 : (List.range t.chains.length).filterMap (fun i => (t.chains[i]?).map (·.data)) = t.chains.map (·.data) := by
      have gen : ∀ (ch : List (Entry α)), (List.range ch.length).filterMap (fun i => (ch[i]?).map (·.data)) = ch.map (·.data) := by
        intro ch
        induction ch with
        | nil => rfl
        | cons x xs ih =>
          rw [List.length_cons, List.range_succ_eq_map, List.filterMap_cons, List.filterMap_map, List.map_cons, ← ih]
          rfl
      exact gen t.chains
    rw [h2, ← h3]
    exact (hperm.filterMap _).symm
  · intro he
    have hd : dense t = false := by
      cases hd : dense t with
      | false => rfl
      | true =>
        have := (dense_iff hi).mp hd
        subst this
        simp only [List.length_nil] at hcnt
        omega
    simp [rawData, hd]

/-- Two entries on one chain, one added after another was removed. -/
example : tState exMap.cfg empty' [.add (1, 10), .add (4, 40), .remove (1, 0) true, .add (7, 70)] =
    .ok ⟨[none, some 0, none, none, none], [⟨(7, 70), some 1⟩, ⟨(4, 40), none⟩], none, 0⟩ := by decide +kernel

end Verif.Hash
