import Verif.Hash.Unique
import Verif.Hash.TableSpec

/-! # Simulation of the multimap specification by the table -/

namespace Verif.Hash

variable {α : Type} {c : Cfg α} {t : Table α} {s : MultiSt α} {n : Nat}

/-- As `UR`, without distinct keys. -/
structure MR (c : Cfg α) (t : Table α) (s : MultiSt α) (n : Nat) : Prop where
  repr : ∃ bs fl, Inv c t bs fl ∧ s.items.Perm (bs.flatten.map (·.2))
  used : s.used = decide (t.chains.length ≠ 0)
  bound : t.chains.length ≤ n

theorem mr_empty (c : Cfg α) (n : Nat) : MR c empty' ⟨[], false⟩ n :=
  ⟨⟨[], [], empty_inv c, by simp⟩, by simp [empty'], by simp [empty']⟩

theorem mr_add (law : Lawful c) (h : MR c t s n) (hf : Fits c n) (hlt : s.items.length < n) (d : α) :
    ∃ t' loc, add c t d = .ok (t', loc) ∧ MR c t' ⟨d :: s.items, true⟩ n ∧ deref t' loc = .ok d := by
  obtain ⟨bs, fl, hi, hp⟩ := h.repr
  have hb := h.bound
  have hf2 := hf.1
  have hcnt := hi.count
  have hlen := hp.length_eq
  rw [List.length_map] at hlen
  obtain ⟨t', loc, bs', fl', e1, e2, e3, e4⟩ := add_ok law hi d
    (fun e => hf.2 _ (by rw [e, List.length_nil] at hcnt; omega)) (fun e => by rw [e, List.length_nil] at hcnt; omega)
  have hb' : t'.chains.length ≤ n := by
    rcases e4 with ⟨e, e4⟩ | ⟨_, e4⟩
    · rw [e, List.length_nil] at hcnt; omega
    · omega
  have hne : t'.chains.length ≠ 0 := by
    have hl := e2.idx_lt (p := (loc, d)) (e3.mem_iff.2 (by simp))
    omega
  obtain ⟨nx, hg⟩ := e2.get_data (p := (loc, d)) (e3.mem_iff.2 (by simp))
  exact ⟨t', loc, e1, ⟨⟨bs', fl', e2, (List.Perm.cons d hp).trans (e3.map (fun x : Cell α => x.2)).symm⟩,
    by simp [hne], hb'⟩, by simp [deref, rd_ok hg]⟩

theorem mr_lookup (law : Lawful c) (h : MR c t s n) (k : α) :
    ((∀ x ∈ s.items, c.eq k x = false) ∧ lookup c t k = .ok none) ∨
    ∃ x loc, x ∈ s.items ∧ c.eq k x = true ∧ lookup c t k = .ok (some loc) ∧ deref t loc = .ok x := by
  obtain ⟨bs, fl, hi, hp⟩ := h.repr
  obtain ⟨r, e, hr⟩ := lookup_ok law hi k
  rcases hr with ⟨rfl, hr⟩ | ⟨l1, p, l2, hb, rfl, hk, _⟩
  · left
    refine ⟨?_, e⟩
    intro x hx
    obtain ⟨q, hq, rfl⟩ := List.mem_map.1 (hp.mem_iff.1 hx)
    exact hr q hq
  · right
    have hpm : p ∈ bs.flatten := mem_flatten_of_getElem? hb (by simp)
    obtain ⟨nx, hg⟩ := hi.get_data hpm
    exact ⟨p.2, p.1, hp.mem_iff.2 (List.mem_map_of_mem hpm), hk, e, by simp [deref, rd_ok hg]⟩

theorem mr_step (law : Lawful c) (h : MR c t s n) (hf : Fits c n) (op : TOp α) :
    MultiOver n s op ∨ (MultiAborts c.eq s op ∧ tStep c t op = .abort) ∨
    ∃ t' o s', tStep c t op = .ok (t', o) ∧ MultiStep c.eq s op o s' ∧ MR c t' s' n := by
  obtain ⟨bs, fl, hi, hp⟩ := h.repr
  cases op with
  | add d =>
    rcases Nat.lt_or_ge s.items.length n with hlt | hge
    · obtain ⟨t', loc, e1, e2, e3⟩ := mr_add law h hf hlt d
      exact .inr (.inr ⟨t', .opt (some d), _, by simp [tStep, e1, e3], ⟨rfl, List.Perm.refl _, rfl⟩, e2⟩)
    · exact .inl hge
  | addOrReplace d =>
    rcases Nat.lt_or_ge s.items.length n with hlt | hge
    · right; right
      rcases mr_lookup law h d with ⟨hno, e⟩ | ⟨x, loc, hx, hk, e, e'⟩
      · obtain ⟨t', loc, e1, e2, e3⟩ := mr_add law h hf hlt d
        exact ⟨t', .repl d false, _, by simp [tStep, addOrReplace, e, e1, e3],
          .inr ⟨hno, rfl, List.Perm.refl _, rfl⟩, e2⟩
      · exact ⟨t, .repl x true, s, by simp [tStep, addOrReplace, e, e'], .inl ⟨x, hx, hk, rfl, rfl⟩, h⟩
    · exact .inl hge
  | lookup k =>
    right; right
    rcases mr_lookup law h k with ⟨hno, e⟩ | ⟨x, loc, hx, hk, e, e'⟩
    · exact ⟨t, .opt none, s, by simp [tStep, e, derefOpt], ⟨rfl, .inr ⟨hno, rfl⟩⟩, h⟩
    · exact ⟨t, .opt (some x), s, by simp [tStep, e, derefOpt, e'], ⟨rfl, .inl ⟨x, hx, hk, rfl⟩⟩, h⟩
  | remove k must =>
    right
    rcases remove_ok law hi k must with ⟨hno, e⟩ | ⟨m1, p, m2, t', g1, g2, g3, g4, g5, g6, g7⟩
    · have hno' : ∀ x ∈ s.items, c.eq k x = false := by
        intro x hx
        obtain ⟨q, hq, rfl⟩ := List.mem_map.1 (hp.mem_iff.1 hx)
        exact hno q hq
      cases must with
      | true => exact .inl ⟨⟨rfl, hno'⟩, by simp [tStep, e]⟩
      | false => exact .inr ⟨t, .bool false, s, by simp [tStep, e], ⟨rfl, .inr ⟨hno', rfl, rfl, rfl⟩⟩, h⟩
    · right
      have h1 := hp.trans ((flatten_set_erase bs _ m1 m2 p g1).map (fun x : Cell α => x.2))
      exact ⟨t', .bool true, ⟨(bs.set (c.hash k % t.entry.length) (m1 ++ m2)).flatten.map (fun x : Cell α => x.2), s.used⟩, by simp [tStep, g4], ⟨rfl, .inl ⟨p.2, g2, h1, rfl⟩⟩,
        ⟨⟨_, _, g5, List.Perm.refl _⟩, by rw [g6]; exact h.used, by rw [g6]; exact h.bound⟩⟩
  | findErase k =>
    right; right
    obtain ⟨it, e, hr⟩ := find_ok law hi k
    rcases hr with ⟨rfl, hno⟩ | ⟨before, p, rest, hrem, hk⟩
    · refine ⟨t, .bool false, s, by simp [tStep, findErase, e], ⟨rfl, .inr ⟨?_, rfl, rfl⟩⟩, h⟩
      intro x hx
      obtain ⟨q, hq, rfl⟩ := List.mem_map.1 (hp.mem_iff.1 hx)
      exact hno q hq
    · obtain ⟨t', bs', g1, g2, g3, g4⟩ := erase_ok hi hrem
      exact ⟨t', .bool true, ⟨bs'.flatten.map (fun x : Cell α => x.2), s.used⟩, by simp [tStep, findErase, e, hrem.ne_end hi, g1],
        ⟨rfl, .inl ⟨p.2, hk, hp.trans (g3.map (fun x : Cell α => x.2)), rfl⟩⟩,
        ⟨⟨_, _, g2, List.Perm.refl _⟩, by rw [g4]; exact h.used, by rw [g4]; exact h.bound⟩⟩
  | clear =>
    obtain ⟨h1, h2⟩ := clear_ok hi
    exact .inr (.inr ⟨clear t, .unit, ⟨[], false⟩, rfl, ⟨rfl, rfl⟩, ⟨⟨_, _, h1, by simp⟩, by simp [h2], by simp [h2]⟩⟩)
  | reserve want =>
    right
    by_cases h0 : t.chains.length = 0
    · have hu : s.used = false := by rw [h.used]; simp [h0]
      rcases Nat.lt_or_ge 141650939 want with hw | hw
      · left
        refine ⟨Or.inr hw, ?_⟩
        simp only [tStep, reserve, h0, decide_true, Res.require_true, Res.bind_ok, primeLoop_abort want hw, Res.bind_abort]
      · right
        obtain ⟨t', e1, e2, e3, e4⟩ := reserve_ok hi h0 want hw
        have hcount := hi.count
        have hb0 : bs.flatten = [] := List.length_eq_zero_iff.1 (by omega)
        rw [hb0] at hp
        have hs : s.items = [] := by simpa using hp
        exact ⟨t', .unit, s, by simp [tStep, e1], ⟨hu, hw, rfl, rfl⟩,
          ⟨⟨_, _, e2, by simp [hs]⟩, by rw [hu]; simp [e3], by simp [e3]⟩⟩
    · left
      refine ⟨Or.inl (by rw [h.used]; simp [h0]), ?_⟩
      have : decide (t.chains.length = 0) = false := by simp [h0]
      simp only [tStep, reserve, this, Res.require_false, Res.bind_abort]
  | size =>
    exact .inr (.inr ⟨t, .nat (size t), s, rfl, ⟨by rw [size_ok hi, hp.length_eq, List.length_map], rfl⟩, h⟩)
  | walk =>
    exact .inr (.inr ⟨t, .list _, s, by simp only [tStep, walk_ok hi, Res.bind_ok, Res.pure_eq], ⟨rfl, _, rfl, hp.symm⟩, h⟩)
  | random a b =>
    right; right
    by_cases hne : bs.flatten = []
    · have hsz := size_ok hi
      rw [hne] at hsz hp
      have hs : s.items = [] := by simpa using hp
      exact ⟨t, .opt none, s, by simp [tStep, randomlookup, hsz, derefOpt], ⟨rfl, .inl ⟨hs, rfl⟩⟩, h⟩
    · obtain ⟨p, hpm, e⟩ := randomlookup_ok hi a b hne
      obtain ⟨nx, hg⟩ := hi.get_data hpm
      exact ⟨t, .opt (some p.2), s, by simp [tStep, e, derefOpt, deref, rd_ok hg],
        ⟨rfl, .inr ⟨p.2, hp.mem_iff.2 (List.mem_map_of_mem hpm), rfl⟩⟩, h⟩

theorem mr_run (law : Lawful c) (hf : Fits c n) : ∀ (ops : List (TOp α)) (t : Table α) (s : MultiSt α), MR c t s n →
    MultiRun n c.eq s ops (tRun c t ops) := by
  intro ops
  induction ops with
  | nil => intro t s _; rfl
  | cons op ops ih =>
    intro t s h
    rcases mr_step law h hf op with h1 | ⟨h1, e⟩ | ⟨t', o, s', e, h1, h2⟩
    · exact .inl h1
    · exact .inr (.inl ⟨h1, by simp [tRun, e]⟩)
    · refine .inr (.inr ⟨o, s', tRun c t' ops, h1, ih t' s' h2, ?_⟩)
      simp only [tRun, e, Res.bind_ok, Res.pure_eq]
      cases tRun c t' ops <;> simp

theorem multi_growth {α : Type} {eq : α → α → Bool} {op : TOp α} {o : TOut α} {s s' : MultiSt α} (h1 : MultiStep eq s op o s') :
    s'.items.length ≤ s.items.length + 1 := by
  cases op with
  | add d => have := h1.2.1.length_eq; simp only [List.length_cons] at this; omega
  | addOrReplace d =>
    rcases h1 with ⟨x, _, _, _, rfl⟩ | ⟨_, _, h3, _⟩
    · omega
    · have := h3.length_eq; simp only [List.length_cons] at this; omega
  | lookup k => rw [h1.1]; omega
  | remove k must =>
    rcases h1.2 with ⟨x, _, h3, _⟩ | ⟨_, _, h3, _⟩
    · have := h3.length_eq; simp only [List.length_cons] at this; omega
    · rw [h3]; omega
  | findErase k =>
    rcases h1.2 with ⟨x, _, h3, _⟩ | ⟨_, h3, _⟩
    · have := h3.length_eq; simp only [List.length_cons] at this; omega
    · rw [h3]; omega
  | clear => rw [h1.2]; simp
  | reserve w => rw [h1.2.2.2]; omega
  | size => rw [h1.2]; omega
  | walk => rw [h1.1]; omega
  | random a b => rw [h1.1]; omega

theorem getLast?_end {β : Type} (o1 o3 : List β) (o p x : β) :
    (o1 ++ o :: (o3 ++ [p, x])).getLast? = some x := by
  rw [show o1 ++ o :: (o3 ++ [p, x]) = (o1 ++ o :: (o3 ++ [p])) ++ [x] by simp, List.getLast?_concat]

/-- The state a history leads to. -/
def tState (c : Cfg α) : Table α → List (TOp α) → Res (Table α)
  | t, [] => .ok t
  | t, op :: ops => do
    let r ← tStep c t op
    tState c r.1 ops

end Verif.Hash
