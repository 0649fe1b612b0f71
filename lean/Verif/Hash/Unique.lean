import Verif.Hash.Lemmas3
import Verif.Hash.MapModel

/-! # HashTable used with distinct keys: list-level facts

`UR c t s used n`: the table `t` holds exactly the entries `s` (in some order, keys pairwise
different), has ever been added to since creation or `clear` iff `used`, and has at most `n`
slots. -/

namespace Verif.Hash

variable {α : Type} {c : Cfg α}

/-- The slot vector can take `n` entries: its indices fit an `int32_t` and the largest bucket
count is not outgrown. -/
def Fits (c : Cfg α) (n : Nat) : Prop := n ≤ 2147483648 ∧ ∀ k, k < n → c.full k 141650939 = false

structure UR (c : Cfg α) (t : Table α) (s : List α) (used : Bool) (n : Nat) : Prop where
  repr : ∃ bs fl, Inv c t bs fl ∧ s.Perm (bs.flatten.map (·.2))
  dist : s.Pairwise (fun x y => c.eq x y = false)
  used : used = decide (t.chains.length ≠ 0)
  bound : t.chains.length ≤ n

theorem Lawful.eq_comm (law : Lawful c) (a b : α) : c.eq a b = c.eq b a := by
  cases h : c.eq a b with
  | true => exact (law.symm a b h).symm
  | false =>
    cases h' : c.eq b a with
    | false => rfl
    | true => rw [law.symm b a h'] at h; cases h

/-- A key equal to one of two different entries is different from the other. -/
theorem Lawful.eq_left (law : Lawful c) {k x y : α} (h : c.eq k x = true) (h' : c.eq x y = false) : c.eq k y = false := by
  cases h2 : c.eq k y with
  | false => rfl
  | true => rw [law.trans x k y (law.symm _ _ h) h2] at h'; cases h'

theorem Lawful.cong (law : Lawful c) {x y : α} (h : c.eq x y = true) (z : α) : c.eq x z = c.eq y z := by
  cases h2 : c.eq y z with
  | true => exact law.trans _ _ _ h h2
  | false => exact law.eq_left h h2

theorem pairwise_perm (law : Lawful c) {l m : List α} (h : l.Perm m) (hp : l.Pairwise (fun x y => c.eq x y = false)) :
    m.Pairwise (fun x y => c.eq x y = false) :=
  (h.pairwise_iff (fun {x y} h => by rw [law.eq_comm]; exact h)).1 hp

theorem uniq_of_pairwise (law : Lawful c) {l : List (Cell α)} (hp : (l.map (·.2)).Pairwise (fun x y => c.eq x y = false)) :
    Uniq c l := by
  induction l with
  | nil => intro x hx; cases hx
  | cons p ps ih =>
    simp only [List.map_cons, List.pairwise_cons] at hp
    intro x hx y hy he
    rcases List.mem_cons.1 hx with rfl | hx'
    · rcases List.mem_cons.1 hy with rfl | hy'
      · rfl
      · rw [hp.1 y.2 (List.mem_map_of_mem hy')] at he; cases he
    · rcases List.mem_cons.1 hy with rfl | hy'
      · rw [law.eq_comm, hp.1 x.2 (List.mem_map_of_mem hx')] at he; cases he
      · exact ih hp.2 x hx' y hy' he

theorem find?_perm (law : Lawful c) {l m : List α} (h : l.Perm m) (hp : l.Pairwise (fun x y => c.eq x y = false)) (k : α) :
    l.find? (c.eq k) = m.find? (c.eq k) := by
  have key : ∀ {l : List α} {x : α}, l.Pairwise (fun x y => c.eq x y = false) → x ∈ l → c.eq k x = true →
      l.find? (c.eq k) = some x := by
    intro l x
    induction l with
    | nil => intro _ hx; cases hx
    | cons y ys ih =>
      intro hp hx he
      rw [List.pairwise_cons] at hp
      rcases List.mem_cons.1 hx with rfl | hx
      · simp [List.find?, he]
      · have : c.eq k y = false := by
          have := hp.1 x hx
          rw [law.eq_comm] at this
          exact law.eq_left he this
        rw [List.find?_cons, this]
        exact ih hp.2 hx he
  cases hl : m.find? (c.eq k) with
  | none =>
    rw [List.find?_eq_none] at hl ⊢
    intro x hx
    exact hl x (h.mem_iff.1 hx)
  | some x =>
    exact key hp (h.mem_iff.2 (List.mem_of_find?_eq_some hl)) (List.find?_some hl)

theorem ur_empty (c : Cfg α) : UR c empty' [] false 0 :=
  ⟨⟨[], [], empty_inv c, by simp⟩, List.Pairwise.nil, by simp [empty'], by simp [empty']⟩

section
variable {t : Table α} {s : List α} {used : Bool} {n : Nat}

theorem UR.mono (h : UR c t s used n) {m : Nat} (hm : n ≤ m) : UR c t s used m :=
  ⟨h.repr, h.dist, h.used, Nat.le_trans h.bound hm⟩

theorem ur_lookup (law : Lawful c) (h : UR c t s used n) (k : α) :
    (s.find? (c.eq k) = none ∧ lookup c t k = .ok none) ∨
    ∃ x loc, s.find? (c.eq k) = some x ∧ lookup c t k = .ok (some loc) ∧ deref t loc = .ok x ∧
      ∀ v, c.eq x v = true → ∃ t', store t loc v = .ok t' ∧
        UR c t' (s.map fun y => if c.eq k y then v else y) used n := by
  obtain ⟨bs, fl, hi, hp⟩ := h.repr
  obtain ⟨r, e, hr⟩ := lookup_ok law hi k
  have hf := find?_perm law hp h.dist k
  rcases hr with ⟨rfl, hr⟩ | ⟨l1, p, l2, hb, rfl, hk, _⟩
  · left
    refine ⟨?_, e⟩
    rw [hf, List.find?_eq_none]
    intro x hx
    obtain ⟨q, hq, rfl⟩ := List.mem_map.1 hx
    simp [hr q hq]
  · right
    have hpm : p ∈ bs.flatten := mem_flatten_of_getElem? hb (by simp)
    have hps : p.2 ∈ s := hp.mem_iff.2 (List.mem_map_of_mem hpm)
    obtain ⟨nx, hg⟩ := hi.get_data hpm
    refine ⟨p.2, p.1, ?_, e, by simp [deref, rd_ok hg], ?_⟩
    · cases hfind : s.find? (c.eq k) with
      | none =>
        rw [List.find?_eq_none] at hfind
        exact absurd hk (hfind p.2 hps)
      | some y =>
        have hy := List.find?_some hfind
        have hym : y ∈ bs.flatten.map (·.2) := hp.mem_iff.1 (List.mem_of_find?_eq_some hfind)
        obtain ⟨q, hq, rfl⟩ := List.mem_map.1 hym
        have hu := uniq_of_pairwise law (pairwise_perm law hp h.dist)
        have : p = q := hu p hpm q hq (law.trans _ _ _ (law.symm _ _ hk) hy)
        rw [this]
    · intro v hv
      obtain ⟨t', bs', e1, e2, ⟨q, e3, e4⟩, e5⟩ := store_ok hi hpm v (law.hash _ _ hv).symm
      refine ⟨t', e1, ⟨bs', fl, e2, ?_⟩, ?_, by rw [e5]; exact h.used, by rw [e5]; exact h.bound⟩
      · have h1 : s.Perm (p.2 :: q.map (·.2)) := hp.trans (e3.map (fun x : Cell α => x.2))
        have hd := pairwise_perm law h1 h.dist
        rw [List.pairwise_cons] at hd
        have h2 := h1.map (fun y => if c.eq k y then v else y)
        have h3 : (q.map (·.2)).map (fun y => if c.eq k y then v else y) = q.map (·.2) := by
          rw [List.map_congr_left (g := id), List.map_id]
          intro y hy
          simp [law.eq_left hk (hd.1 y hy)]
        rw [List.map_cons, if_pos hk, h3] at h2
        exact h2.trans (e4.map (fun x : Cell α => x.2)).symm
      · rw [List.pairwise_map]
        refine h.dist.imp_of_mem ?_
        intro a b ha hb hab
        by_cases h1 : c.eq k a = true
        · by_cases h2 : c.eq k b = true
          · rw [law.trans a k b (law.symm _ _ h1) h2] at hab; cases hab
          · rw [if_pos h1, if_neg h2]
            rw [← law.cong hv, law.cong (law.symm _ _ hk)]; simpa using h2
        · by_cases h2 : c.eq k b = true
          · rw [if_neg h1, if_pos h2]
            rw [law.eq_comm, ← law.cong hv, law.cong (law.symm _ _ hk)]; simpa using h1
          · rw [if_neg h1, if_neg h2]; exact hab

theorem ur_add (law : Lawful c) (h : UR c t s used n) (hf : Fits c n) (hlt : s.length < n) (d : α) (habs : s.find? (c.eq d) = none) :
    ∃ t' loc, add c t d = .ok (t', loc) ∧ UR c t' (d :: s) true n ∧ deref t' loc = .ok d ∧
      ∀ v, c.eq d v = true → ∃ t'', store t' loc v = .ok t'' ∧ UR c t'' (v :: s) true n := by
  obtain ⟨bs, fl, hi, hp⟩ := h.repr
  have hb := h.bound
  have hf2 := hf.1
  have hcnt := hi.count
  have hlen := hp.length_eq
  rw [List.length_map] at hlen
  obtain ⟨t', loc, bs', fl', e1, e2, e3, e4⟩ := add_ok law hi d
    (fun e => hf.2 _ (by rw [e, List.length_nil] at hcnt; omega)) (fun e => by rw [e, List.length_nil] at hcnt; omega)
  have hb' : t'.chains.length ≤ n := by
    rcases e4 with ⟨e, e4⟩ | ⟨_, e4⟩
    · rw [e, List.length_nil] at hcnt; omega
    · omega
  rw [List.find?_eq_none] at habs
  have hne : t'.chains.length ≠ 0 := by
    have hl := e2.idx_lt (p := (loc, d)) (e3.mem_iff.2 (by simp))
    omega
  have hdist : ∀ v, c.eq d v = true → (v :: s).Pairwise (fun x y => c.eq x y = false) := by
    intro v hv
    rw [List.pairwise_cons]
    refine ⟨?_, h.dist⟩
    intro y hy
    rw [← law.cong hv]
    simpa using habs y hy
  have hur : UR c t' (d :: s) true n :=
    ⟨⟨bs', fl', e2, (List.Perm.cons d hp).trans (e3.map (fun x : Cell α => x.2)).symm⟩, hdist d (law.refl d), by simp [hne],
      hb'⟩
  obtain ⟨nx, hg⟩ := e2.get_data (p := (loc, d)) (e3.mem_iff.2 (by simp))
  refine ⟨t', loc, e1, hur, by simp [deref, rd_ok hg], ?_⟩
  intro v hv
  obtain ⟨t'', bs'', g1, g2, ⟨q, g3, g4⟩, g5⟩ := store_ok e2 (e3.mem_iff.2 (by simp : (loc, d) ∈ (loc, d) :: bs.flatten)) v
    (law.hash _ _ hv).symm
  refine ⟨t'', g1, ⟨bs'', fl', g2, ?_⟩, hdist v hv, by rw [g5]; simp [hne], by rw [g5]; exact hb'⟩
  have hq : q.Perm bs.flatten := (List.perm_cons _).1 (g3.symm.trans e3)
  exact (List.Perm.cons v (hp.trans (hq.map (fun x : Cell α => x.2)).symm)).trans (g4.map (fun x : Cell α => x.2)).symm

theorem filter_perm_cons (law : Lawful c) {x k : α} {q : List α} (h1 : s.Perm (x :: q)) (hd : s.Pairwise (fun x y => c.eq x y = false))
    (hk : c.eq k x = true) : (s.filter (fun y => !c.eq k y)).Perm q := by
  have hd' := pairwise_perm law h1 hd
  rw [List.pairwise_cons] at hd'
  have h2 := h1.filter (fun y => !c.eq k y)
  have h3 : q.filter (fun y => !c.eq k y) = q := List.filter_eq_self.2 (fun y hy => by
    simp [law.eq_left hk (hd'.1 y hy)])
  rwa [List.filter_cons_of_neg (by simp [hk]), h3] at h2

theorem ur_remove (law : Lawful c) (h : UR c t s used n) (k : α) (must : Bool) :
    (s.find? (c.eq k) = none ∧ remove c t k must = (if must then .abort else .ok (t, false))) ∨
    ((s.find? (c.eq k)).isSome ∧ ∃ t', remove c t k must = .ok (t', true) ∧
      UR c t' (s.filter fun y => !c.eq k y) used n) := by
  obtain ⟨bs, fl, hi, hp⟩ := h.repr
  rcases remove_ok law hi k must with ⟨hno, e⟩ | ⟨m1, p, m2, t', g1, g2, g3, g4, g5, g6, g7⟩
  · left
    refine ⟨?_, e⟩
    rw [List.find?_eq_none]
    intro x hx
    obtain ⟨q, hq, rfl⟩ := List.mem_map.1 (hp.mem_iff.1 hx)
    simp [hno q hq]
  · right
    have hpm : p ∈ bs.flatten := mem_flatten_of_getElem? g1 (by simp)
    constructor
    · rw [List.find?_isSome]
      exact ⟨p.2, hp.mem_iff.2 (List.mem_map_of_mem hpm), g2⟩
    · have h1 : s.Perm (p.2 :: _) := hp.trans ((flatten_set_erase bs _ m1 m2 p g1).map (·.2))
      refine ⟨t', g4, ⟨_, _, g5, filter_perm_cons law h1 h.dist g2⟩, h.dist.filter _, by rw [g6]; exact h.used,
        by rw [g6]; exact h.bound⟩

theorem ur_clear (h : UR c t s used n) : UR c (clear t) [] false n := by
  obtain ⟨bs, fl, hi, hp⟩ := h.repr
  obtain ⟨h1, h2⟩ := clear_ok hi
  exact ⟨⟨_, _, h1, by simp⟩, List.Pairwise.nil, by simp [h2], by simp [h2]⟩

theorem primeLoop_abort (want : Nat) (h : 141650939 < want) :
    primeLoop (fun p => decide (p < want)) primes = .abort := by
  have key : ∀ (ps : List Nat), (∀ p ∈ ps, p ≠ 0 ∧ p < want) →
      primeLoop (fun p => decide (p < want)) (ps ++ [0]) = .abort := by
    intro ps
    induction ps with
    | nil => intro _; have : 0 < want := by omega
             simp [primeLoop, this]
    | cons p ps ih =>
      intro hps
      have := hps p (by simp)
      simp only [List.cons_append, primeLoop, this.2, decide_true, if_true, this.1, ne_eq, not_false_eq_true,
        Res.require_true, Res.bind_ok]
      exact ih (fun q hq => hps q (by simp [hq]))
  refine key [5, 23, 107, 433, 1543, 6091, 24281, 100169, 487651, 1179589, 2471093, 7368787, 32452843, 141650939] ?_
  have : ∀ p ∈ [5, 23, 107, 433, 1543, 6091, 24281, 100169, 487651, 1179589, 2471093, 7368787, 32452843, 141650939],
      p ≠ 0 ∧ p ≤ 141650939 := by decide
  intro p hp
  have := this p hp
  exact ⟨this.1, by omega⟩

theorem ur_reserve (h : UR c t s used n) (want : Nat) :
    ((used = true ∨ 141650939 < want) ∧ reserve t want = .abort) ∨
    (used = false ∧ want ≤ 141650939 ∧ ∃ t', reserve t want = .ok t' ∧ UR c t' s used n) := by
  obtain ⟨bs, fl, hi, hp⟩ := h.repr
  by_cases h0 : t.chains.length = 0
  · have hu : used = false := by rw [h.used]; simp [h0]
    rcases Nat.lt_or_ge 141650939 want with hw | hw
    · left
      refine ⟨Or.inr hw, ?_⟩
      simp only [reserve, h0, decide_true, Res.require_true, Res.bind_ok, primeLoop_abort want hw, Res.bind_abort]
    · right
      obtain ⟨t', e1, e2, e3, e4⟩ := reserve_ok hi h0 want hw
      have hcount := hi.count
      have hb0 : bs.flatten = [] := List.length_eq_zero_iff.1 (by omega)
      rw [hb0] at hp
      have hs : s = [] := by simpa using hp
      refine ⟨hu, hw, t', e1, ⟨_, _, e2, by simp [hs]⟩, h.dist, by rw [hu]; simp [e3], by simp [e3]⟩
  · left
    refine ⟨Or.inl (by rw [h.used]; simp [h0]), ?_⟩
    have : decide (t.chains.length = 0) = false := by simp [h0]
    simp only [reserve, this, Res.require_false, Res.bind_abort]

theorem ur_size (h : UR c t s used n) : size t = s.length := by
  obtain ⟨bs, fl, hi, hp⟩ := h.repr
  rw [size_ok hi, hp.length_eq, List.length_map]

theorem ur_walk (h : UR c t s used n) : ∃ l, walk t = .ok l ∧ l.Perm s := by
  obtain ⟨bs, fl, hi, hp⟩ := h.repr
  exact ⟨_, walk_ok hi, hp.symm⟩

theorem ur_findErase (law : Lawful c) (h : UR c t s used n) (k : α) :
    (s.find? (c.eq k) = none ∧ findErase c t k = .ok (t, false)) ∨
    ((s.find? (c.eq k)).isSome ∧ ∃ t', findErase c t k = .ok (t', true) ∧
      UR c t' (s.filter fun y => !c.eq k y) used n) := by
  obtain ⟨bs, fl, hi, hp⟩ := h.repr
  obtain ⟨it, e, hr⟩ := find_ok law hi k
  rcases hr with ⟨rfl, hno⟩ | ⟨before, p, rest, hrem, hk⟩
  · left
    refine ⟨?_, by simp [findErase, e]⟩
    rw [List.find?_eq_none]
    intro x hx
    obtain ⟨q, hq, rfl⟩ := List.mem_map.1 (hp.mem_iff.1 hx)
    simp [hno q hq]
  · right
    have hpm : p ∈ bs.flatten := by rw [← hrem.append]; simp
    obtain ⟨t', bs', g1, g2, g3, g4⟩ := erase_ok hi hrem
    constructor
    · rw [List.find?_isSome]
      exact ⟨p.2, hp.mem_iff.2 (List.mem_map_of_mem hpm), hk⟩
    · have h1 : s.Perm (p.2 :: bs'.flatten.map (·.2)) := hp.trans (g3.map (fun x : Cell α => x.2))
      refine ⟨t', by simp [findErase, e, hrem.ne_end hi, g1], ⟨_, _, g2, filter_perm_cons law h1 h.dist hk⟩,
        h.dist.filter _, by rw [g4]; exact h.used, by rw [g4]; exact h.bound⟩

theorem ur_prune (law : Lawful c) (h : UR c t s used n) (sel : α → Bool) :
    ∃ t' seen, prune c sel t = .ok (t', seen) ∧ UR c t' (s.filter fun y => !sel y) used n ∧
      (∀ x, x ∈ seen ↔ x ∈ s) ∧ (seen.filter sel).Perm (s.filter sel) := by
  obtain ⟨bs, fl, hi, hp⟩ := h.repr
  have hc := hi.count
  obtain ⟨t', seen, bs', fl', e1, e2, e3, e4, e5, e6, e7⟩ := pruneLoop_ok law sel ((t.chains.length + 1) * (t.chains.length + 1))
    t bs fl (begin' t) [] bs.flatten hi (uniq_of_pairwise law (pairwise_perm law hp h.dist)) (begin_ok hi)
    (fun p hp => by cases hp) (by
      generalize bs.flatten.length = m at hc ⊢
      have : m * (m + 1) ≤ t.chains.length * (t.chains.length + 1) := Nat.mul_le_mul (by omega) (by omega)
      have e : (t.chains.length + 1) * (t.chains.length + 1) = t.chains.length * (t.chains.length + 1) + (t.chains.length + 1) := by
        rw [Nat.add_mul, Nat.one_mul]
      omega)
  refine ⟨t', seen, e1, ⟨⟨bs', fl', e2, ?_⟩, h.dist.filter _, by rw [e6]; exact h.used, by rw [e6]; exact h.bound⟩, ?_, e7.trans (hp.filter sel).symm⟩
  · refine (hp.filter _).trans ?_
    have := (e3.map (fun x : Cell α => x.2)).symm
    rw [List.filter_map]
    exact this
  · intro x
    constructor
    · intro hx; exact hp.mem_iff.2 (e5 x hx)
    · intro hx
      obtain ⟨q, hq, rfl⟩ := List.mem_map.1 (hp.mem_iff.1 hx)
      exact e4 q hq

end
end Verif.Hash
