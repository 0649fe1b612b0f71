import Verif.Cube.Lemmas3
import Mathlib.Algebra.BigOperators.Group.List.Basic
import Mathlib.Tactic.Abel

/-! # Properties of `HashTupleStats` and `StatsCube` (C27, C28, C86, C87) -/

namespace Verif.Cube

open Verif.Hash Verif.Tuple

variable {α S D : Type}

/-! ## Example -/

/-- Numbers as fields; a statistic is the list of values added to it. -/
def exP : Params Nat (List Nat) Nat :=
  { field := exField, full := fun n m => decide (n ≥ 2 * m), dflt := 0, fresh := [], add := fun s d => s ++ [d], merge := fun a b => a ++ b,
    wanted := fun had _ => had }

theorem exP_ok : exP.Ok :=
  ⟨⟨fun a => by simp [exP, exField], fun a b h => by simp [exP, exField] at *; exact h.symm,
    fun a b c h h' => by simp [exP, exField] at *; exact h.trans h', fun a b h => by simp [exP, exField] at *; rw [h],
    fun a b h => by simp [exP, exField] at *; omega, fun a b c h h' => by simp [exP, exField] at *; omega,
    fun a b => by simp [exP, exField]; omega⟩, fun n => by simp [exP]⟩

theorem exP_fits : exP.Fits 283301878 := ⟨by omega, fun k hk => by simp only [exP, decide_eq_false_iff_not]; omega⟩

/-! ## Histories -/

/-- C27, C28. Every history of calls on a cube gives results of the finite maps of `Spec.lean`: no undefined behaviour (no null or
deleted statistic is touched, none deleted twice) and no abort, as long as the tables do not outgrow the prime list. In particular `cube()`
makes each entry the merge of exactly the rows that agree with it, and `walkZeros`/`zeroCube` see every combination of the
values in the columns exactly once. -/
theorem cube_meets_spec (P : Params α S D) (ok : P.Ok) (arity cap : Nat) (hf : P.Fits cap) (ops : List (Op α S D)) (ht : ∀ op ∈ ops, Typed arity op) :
    Run P arity cap ⟨[], []⟩ ops ((run P arity Cube.empty ops).map (·.2)) :=
  run_ok ok hf ops _ _ (cr_empty P arity cap) ht

/-- Two rows, `(1,2) ↦ 10` and `(1,3) ↦ 20`: the cube has `(1,*)` and `(*,*)` with both, and `(*,2)`, `(*,3)` with one each. -/
example : ((run exP 2 Cube.empty [.add [1, 2] 10, .add [1, 3] 20, .cube, .walkOrdered, .walkZeros 0 false]).map (fun r => r.2.map fun o =>
    match o with
    | .cube l => l.map fun x => (x.1.view.map fun o => o.getD 99, x.2)
    | .base l => l
    | _ => [])) =
    .ok [[], [], [], [([1, 99], [20, 10]), ([99, 2], [10]), ([99, 3], [20]), ([99, 99], [20, 10])], [([1, 2], [10]), ([1, 3], [20])]] := by decide +kernel

/-! ## C27 in terms of what was added -/

section
variable {P : Params α S D}

theorem agrees_iff (ok : P.Ok) (q : AnyTuple α) (row : List α) (hq : q.any.length = q.data.length) (hr : row.length = q.data.length) :
    agrees P q row = true ↔ AnyTuple.eq P.field ⟨row, q.any⟩ q = true := by
  rw [← key_agrees ok q row hq hr]; rfl

theorem bae_of_tupleEq {f : Tuple.Field α} (any : List Bool) : ∀ (pos : Nat) (a b : List α), tupleEq f a b = true → bitsetAnyEqual f any pos a b = true
  | _, [], [], _ => rfl
  | pos, x :: xs, y :: ys, h => by
    simp only [tupleEq, Bool.and_eq_true] at h
    simp [bitsetAnyEqual, h.1, bae_of_tupleEq any (pos + 1) xs ys h.2]
  | _, [], _ :: _, h => by simp [tupleEq] at h
  | _, _ :: _, [], h => by simp [tupleEq] at h

/-- Equal rows agree with the same tuples. -/
theorem agrees_congr (ok : P.Ok) (q : AnyTuple α) {r r' : List α} (hq : q.any.length = q.data.length) (hr : r.length = q.data.length)
    (h : tupleEq P.field r r' = true) : agrees P q r = agrees P q r' := by
  have hr' : r'.length = q.data.length := by rw [← tupleEq_length _ _ h]; exact hr
  have e : AnyTuple.eq P.field ⟨r, q.any⟩ ⟨r', q.any⟩ = true := (anyEq_iff _ _ _).2 ⟨rfl, bae_of_tupleEq _ _ _ _ h⟩
  have e' : AnyTuple.eq P.field ⟨r', q.any⟩ ⟨r, q.any⟩ = true := (cube_ok ok).symm _ _ e
  rw [Bool.eq_iff_iff, agrees_iff ok q r hq hr, agrees_iff ok q r' hq hr']
  exact ⟨fun h => (cube_ok ok).trans _ _ _ e' h, fun h => (cube_ok ok).trans _ _ _ e h⟩

/-- Total of a measure over the rows that agree. -/
def total {M : Type} [AddCommMonoid M] (P : Params α S D) (μ : S → M) (q : AnyTuple α) (l : List (List α × S)) : M := ((l.filter fun b => agrees P q b.1).map fun b => μ b.2).sum

theorem total_cons {M : Type} [AddCommMonoid M] (μ : S → M) (q : AnyTuple α) (x : List α × S) (l : List (List α × S)) :
    total P μ q (x :: l) = (if agrees P q x.1 then μ x.2 else 0) + total P μ q l := by
  unfold total
  rw [List.filter_cons]
  split <;> simp

theorem total_mput {M : Type} [AddCommMonoid M] (ok : P.Ok) (μ : S → M) (w : D → M) (h0 : μ P.fresh = 0) (hadd : ∀ s d, μ (P.add s d) = μ s + w d) (q : AnyTuple α)
    (hq : q.any.length = q.data.length) (k : List α) (hk : k.length = q.data.length) (d : D) :
    ∀ l : List (List α × S), l.Pairwise (fun x y => tupleEq P.field x.1 y.1 = false) →
    total P μ q (mput (tupleEq P.field) l k (P.add ((baseVal P l k).getD P.fresh) d)) = (if agrees P q k then w d else 0) + total P μ q l := by
  -- a changed entry in place
  have key : ∀ (v : S) (l : List (List α × S)), l.Pairwise (fun x y => tupleEq P.field x.1 y.1 = false) → mget (tupleEq P.field) l k = some v →
      total P μ q (l.map fun p => if tupleEq P.field k p.1 then (p.1, P.add v d) else p) = (if agrees P q k then w d else 0) + total P μ q l := by
    intro v l
    induction l with
    | nil => intro _ h; simp [mget] at h
    | cons x l ih =>
      intro hp hg
      rw [List.pairwise_cons] at hp
      rw [find?_cons_ke] at hg
      rw [List.map_cons, total_cons, total_cons]
      by_cases hx : tupleEq P.field k x.1 = true
      · rw [if_pos hx] at hg
        have hv : x.2 = v := by simpa using hg
        have hrest : (l.map fun p => if tupleEq P.field k p.1 then (p.1, P.add v d) else p) = l := by
          conv => rhs; rw [← List.map_id l]
          apply List.map_congr_left
          intro y hy
          have hxy := hp.1 y hy
          have : tupleEq P.field k y.1 = false := by
            cases hky : tupleEq P.field k y.1 with
            | false => rfl
            | true =>
              rw [tupleEq_trans ok.field _ _ _ (tupleEq_symm ok.field _ _ hx) hky] at hxy
              cases hxy
          simp [this]
        rw [hrest, if_pos hx, ← agrees_congr ok q hq hk hx]
        subst hv
        split
        · rw [hadd]; abel
        · simp
      · rw [if_neg hx] at hg
        rw [if_neg hx, ih hp.2 hg]
        abel
  intro l hp
  unfold mput baseVal
  cases hg : mget (tupleEq P.field) l k with
  | none =>
    simp only [Option.isSome_none, Bool.false_eq_true, if_false, Option.getD_none]
    rw [total_cons, hadd, h0, zero_add]
  | some v =>
    simp only [Option.isSome_some, if_true, Option.getD_some]
    exact key v l hp hg

/-- Adding rows: the same totals, the same tuples agreed with, by induction over the calls. -/
theorem adds_ok (ok : P.Ok) {arity n : Nat} (hf : P.Fits n) : ∀ (rows : List (List α × D)) (c : Cube α S) (s : St α S), CR P arity n c s →
    (∀ r ∈ rows, r.1.length = arity) → s.base.length + rows.length ≤ n →
    ∃ c' base', (∀ rest, run P arity c (rows.map (fun r => Op.add r.1 r.2) ++ rest) =
        (run P arity c' rest).map (fun x => (x.1, List.replicate rows.length .unit ++ x.2))) ∧
      CR P arity n c' ⟨base', s.cube⟩ ∧ base'.length ≤ s.base.length + rows.length ∧
      ∀ q : AnyTuple α, q.data.length = arity → q.any.length = arity →
        ((∃ b ∈ base', agrees P q b.1 = true) ↔ (∃ b ∈ s.base, agrees P q b.1 = true) ∨ ∃ r ∈ rows, agrees P q r.1 = true) ∧
        ∀ (M : Type) [AddCommMonoid M] (μ : S → M) (w : D → M), μ P.fresh = 0 → (∀ s d, μ (P.add s d) = μ s + w d) →
          total P μ q base' = total P μ q s.base + ((rows.filter fun r => agrees P q r.1).map fun r => w r.2).sum
  | [], c, s, h, _, _ => ⟨c, s.base, fun rest => by
      simp only [List.map_nil, List.nil_append, List.length_nil, List.replicate_zero]
      cases run P arity c rest <;> rfl, h, by simp, fun q _ _ => ⟨by simp, fun M _ μ w _ _ => by simp⟩⟩
  | r :: rows, c, s, h, hl, hn => by
    rw [List.length_cons] at hn
    have hr : r.1.length = arity := hl r (List.mem_cons_self ..)
    rcases step_ok ok hf h (.add r.1 r.2) hr with ho | ⟨c1, o, s1, e1, ⟨ho, hcube, hbase⟩, h1⟩
    · exact absurd ho (by show ¬ (n ≤ s.base.length); omega)
    · have hlen : s1.base.length ≤ s.base.length + 1 := by rw [hbase]; exact mput_length _ _ _ _
      obtain ⟨c2, base2, e2, h2, l2, hq2⟩ := adds_ok ok hf rows c1 s1 h1 (fun x hx => hl x (List.mem_cons_of_mem _ hx)) (by omega)
      rw [hcube] at h2
      refine ⟨c2, base2, fun rest => ?_, h2, by rw [List.length_cons]; omega, fun q hd ha => ?_⟩
      · rw [List.map_cons, List.cons_append, run, e1]
        simp only [Res.bind_ok]
        rw [e2 rest, ho]
        cases run P arity c2 rest <;> simp [Res.map, List.replicate_succ]
      · obtain ⟨g1, g2⟩ := hq2 q hd ha
        refine ⟨?_, fun M _ μ w h0 hadd => ?_⟩
        · rw [g1, hbase]
          have hm : (∃ b ∈ mput (tupleEq P.field) s.base r.1 (P.add ((baseVal P s.base r.1).getD P.fresh) r.2), agrees P q b.1 = true) ↔
              (∃ b ∈ s.base, agrees P q b.1 = true) ∨ agrees P q r.1 = true := by
            unfold mput
            split
            · next hs =>
              constructor
              · rintro ⟨b, hb, hab⟩
                obtain ⟨y, hy, rfl⟩ := List.mem_map.1 hb
                refine .inl ⟨y, hy, ?_⟩
                split at hab <;> exact hab
              · rintro (⟨b, hb, hab⟩ | hab)
                · refine ⟨_, List.mem_map_of_mem hb, ?_⟩
                  split <;> exact hab
                · have hs' : ∃ y ∈ s.base, tupleEq P.field r.1 y.1 = true := by
                    unfold mget at hs
                    rw [Option.isSome_map] at hs
                    obtain ⟨y, hy⟩ := Option.isSome_iff_exists.1 hs
                    exact ⟨y, List.mem_of_find?_eq_some hy, by simpa using List.find?_some hy⟩
                  obtain ⟨y, hy, he⟩ := hs'
                  refine ⟨_, List.mem_map_of_mem hy, ?_⟩
                  rw [agrees_congr ok q (by omega) (by omega) he] at hab
                  split <;> exact hab
            · simp only [List.mem_cons, exists_eq_or_imp]
              exact or_comm
          rw [hm]
          simp only [List.mem_cons, exists_eq_or_imp]
          exact or_assoc
        · rw [g2 M μ w h0 hadd, hbase, total_mput ok μ w h0 hadd q (by omega) r.1 (by omega) r.2 s.base (pr_dist h.base), List.filter_cons]
          split <;> (simp; try abel)

/-- **C27.** After adding rows and `cube()`, walking the cube gives one entry for each tuple with wildcards that is wanted and agrees with
a row, and no others; and every additive measure of an entry (number of values, their sum, ...) is the total over exactly the added values whose
row agrees with it. -/
theorem cube_totals (P : Params α S D) (ok : P.Ok) (arity cap : Nat) (hf : P.Fits cap) (rows : List (List α × D))
    (hl : ∀ r ∈ rows, r.1.length = arity) (hcap : rows.length * 2 ^ arity ≤ cap)
    (hw : ∀ b k k', AnyTuple.eq P.field k k' = true → P.wanted b k = P.wanted b k') :
    ∃ c l, run P arity Cube.empty (rows.map (fun r => .add r.1 r.2) ++ [.cube, .walk]) =
        .ok (c, List.replicate rows.length .unit ++ [.unit, .cube l]) ∧ CubeKeys P arity l ∧
      ∀ q : AnyTuple α, q.data.length = arity → q.any.length = arity →
        ((∃ x ∈ l, AnyTuple.eq P.field x.1 q = true) ↔ P.wanted (q.any.any id) q = true ∧ ∃ r ∈ rows, agrees P q r.1 = true) ∧
        ∀ x ∈ l, AnyTuple.eq P.field x.1 q = true → ∀ (M : Type) [AddCommMonoid M] (μ : S → M) (w : D → M), μ P.fresh = 0 →
          (∀ s d, μ (P.add s d) = μ s + w d) → (∀ a b, μ (P.merge a b) = μ a + μ b) →
          μ x.2 = ((rows.filter fun r => agrees P q r.1).map fun r => w r.2).sum := by
  obtain ⟨c1, base, e1, h1, l1, hq1⟩ := adds_ok ok hf rows Cube.empty ⟨[], []⟩ (cr_empty P arity cap) hl (by
    have : rows.length * 1 ≤ rows.length * 2 ^ arity := Nat.mul_le_mul_left _ (Nat.one_le_two_pow)
    simp only [List.length_nil]; omega)
  simp only [List.length_nil, Nat.zero_add] at l1
  rcases step_ok ok hf h1 .cube trivial with ho | ⟨c2, o2, s2, e2, ⟨ho2, hb2, order, hperm, hof⟩, h2⟩
  · have ho' : cap < 0 + base.length * 2 ^ arity := ho
    have : base.length * 2 ^ arity ≤ rows.length * 2 ^ arity := Nat.mul_le_mul_right _ l1
    omega
  rcases step_ok ok hf h2 .walk trivial with ho | ⟨c3, o3, s3, e3, ⟨_, l, hl3, hperm3⟩, h3⟩
  · exact ho.elim
  have hkeys : CubeKeys P arity l :=
    ⟨fun x hx => hof.1.1 x (hperm3.mem_iff.1 hx), (hperm3.pairwise_iff (fun {x y} h => by
      cases he : AnyTuple.eq P.field y.1 x.1 with
      | false => rfl
      | true =>
        have he' : AnyTuple.eq P.field x.1 y.1 = true := (cube_ok ok).symm _ _ he
        rw [he'] at h; cases h)).2 hof.1.2⟩
  refine ⟨c3, l, ?_, hkeys, fun q hd ha => ?_⟩
  · rw [e1]
    simp only [run, e2, e3, Res.bind_ok, ho2, hl3]
    rfl
  · have hval := hof.2 q hd ha
    have hold : cubeVal P ([] : List (AnyTuple α × S)) q = none := rfl
    simp only [] at hval
    rw [hold] at hval
    -- rows that count are those that agree, if the tuple is wanted
    have hcount : counted P order q = if P.wanted (q.any.any id) q then (order.filter fun b => agrees P q b.1).map (·.2) else [] := by
      unfold counted
      have hb : ∀ b ∈ order, (agrees P q b.1 && P.wanted (q.any.any id) ⟨b.1, q.any⟩) = (agrees P q b.1 && P.wanted (q.any.any id) q) := by
        intro b hb
        have hbl : b.1.length = arity := h1.baseKeys b (hperm.mem_iff.1 hb)
        cases hag : agrees P q b.1 with
        | false => rfl
        | true =>
          rw [hw (q.any.any id) _ q ((agrees_iff ok q b.1 (by omega) (by omega)).1 hag)]
      rw [List.filter_congr hb]
      split
      · next hq => simp [hq]
      · next hq => simp [hq]
    -- the entry of `q`, if any
    have hmem : ∀ v, cubeVal P s2.cube q = some v ↔ ∃ x ∈ l, AnyTuple.eq P.field x.1 q = true ∧ x.2 = v := by
      intro v
      unfold cubeVal mget
      constructor
      · intro h
        rw [Option.map_eq_some_iff] at h
        obtain ⟨x, hx, rfl⟩ := h
        have hqx : q.eq P.field x.1 = true := by simpa using List.find?_some hx
        exact ⟨x, hperm3.mem_iff.2 (List.mem_of_find?_eq_some hx), (cube_ok ok).symm _ _ hqx, rfl⟩
      · rintro ⟨x, hx, he, rfl⟩
        cases hfind : s2.cube.find? (fun p => q.eq P.field p.1) with
        | none =>
          have := List.find?_eq_none.1 hfind x (hperm3.mem_iff.1 hx)
          exact absurd ((cube_ok ok).symm _ _ he) this
        | some y =>
          have hy := List.mem_of_find?_eq_some hfind
          have hqy : q.eq P.field y.1 = true := by simpa using List.find?_some hfind
          have hxy : AnyTuple.eq P.field x.1 y.1 = true := (cube_ok ok).trans _ _ _ he hqy
          have : x = y := by
            refine Classical.byContradiction fun hne => ?_
            have hp := hof.1.2
            obtain ⟨i, hi, hxi⟩ := List.getElem_of_mem (hperm3.mem_iff.1 hx)
            obtain ⟨j, hj, hyj⟩ := List.getElem_of_mem hy
            rw [List.pairwise_iff_getElem] at hp
            rcases Nat.lt_trichotomy i j with h | h | h
            · have := hp i j hi hj h
              rw [hxi, hyj, hxy] at this; cases this
            · subst h; exact hne (by rw [← hxi, ← hyj])
            · have := hp j i hj hi h
              have hyx : AnyTuple.eq P.field y.1 x.1 = true := (cube_ok ok).symm _ _ hxy
              rw [hxi, hyj, hyx] at this; cases this
          subst this
          rfl
    have hexists : (∃ b ∈ order, agrees P q b.1 = true) ↔ ∃ r ∈ rows, agrees P q r.1 = true := by
      have := (hq1 q hd ha).1
      simp only [List.not_mem_nil, false_and, exists_false, false_or] at this
      rw [← this]
      exact ⟨fun ⟨b, hb, h⟩ => ⟨b, hperm.mem_iff.1 hb, h⟩, fun ⟨b, hb, h⟩ => ⟨b, hperm.mem_iff.2 hb, h⟩⟩
    have hempty : (counted P order q).isEmpty = true ↔ ¬ (P.wanted (q.any.any id) q = true ∧ ∃ r ∈ rows, agrees P q r.1 = true) := by
      rw [hcount, ← hexists]
      split
      · next hq => simp [hq]
      · next hq => simp [hq]
    refine ⟨?_, fun x hx hxq M _ μ w h0 hadd hmerge => ?_⟩
    · constructor
      · rintro ⟨x, hx, he⟩
        refine Classical.byContradiction fun hc => ?_
        have h1 := (hmem x.2).2 ⟨x, hx, he, rfl⟩
        rw [hval, if_pos (hempty.2 hc)] at h1
        cases h1
      · intro h
        have hne : ¬ (counted P order q).isEmpty = true := fun he => hempty.1 he h
        rw [if_neg hne] at hval
        obtain ⟨x, hx, he, _⟩ := (hmem _).1 hval
        exact ⟨x, hx, he⟩
    · have h1 := (hmem x.2).2 ⟨x, hx, hxq, rfl⟩
      rw [hval] at h1
      split at h1
      · cases h1
      · next hne =>
        have hwant : P.wanted (q.any.any id) q = true := by
          cases hq : P.wanted (q.any.any id) q with
          | true => rfl
          | false => exact absurd (hempty.2 (by simp [hq])) hne
        rw [hcount, if_pos hwant] at h1
        have hx2 : x.2 = ((order.filter fun b => agrees P q b.1).map (·.2)).foldl P.merge P.fresh := by
          simpa using h1.symm
        have hfold : ∀ (vs : List S) (s : S), μ (vs.foldl P.merge s) = μ s + (vs.map μ).sum := by
          intro vs
          induction vs with
          | nil => intro s; simp
          | cons v vs ih => intro s; rw [List.foldl_cons, ih, hmerge, List.map_cons, List.sum_cons, add_assoc]
        have ht := (hq1 q hd ha).2 M μ w h0 hadd
        have hz : total P μ q ([] : List (List α × S)) = 0 := rfl
        simp only [] at ht
        rw [hz, zero_add] at ht
        rw [hx2, hfold, h0, zero_add, List.map_map, ← ht]
        unfold total
        exact ((hperm.filter _).map _).sum_eq



/-! ## C28 in terms of what was added -/

/-- The values added for a tuple, in the order they were added. -/
def addedTo (P : Params α S D) (rows : List (List α × D)) (k : List α) : List D := (rows.filter fun r => tupleEq P.field r.1 k).map (·.2)

theorem mget_mem {K V : Type} {ke : K → K → Bool} {l : List (K × V)} {k : K} {v : V} (h : mget ke l k = some v) : ∃ x ∈ l, ke k x.1 = true := by
  unfold mget at h
  rw [Option.map_eq_some_iff] at h
  obtain ⟨x, hx, rfl⟩ := h
  exact ⟨x, List.mem_of_find?_eq_some hx, by simpa using List.find?_some hx⟩

theorem mget_isSome {K V : Type} {ke : K → K → Bool} {l : List (K × V)} {k : K} {x : K × V} (hx : x ∈ l) (h : ke k x.1 = true) : ∃ v, mget ke l k = some v := by
  unfold mget
  cases hf : l.find? (fun p => ke k p.1) with
  | none => exact absurd h (by simpa using List.find?_eq_none.1 hf x hx)
  | some y => exact ⟨y.2, rfl⟩

theorem adds_val (ok : P.Ok) {arity n : Nat} (hf : P.Fits n) : ∀ (rows : List (List α × D)) (c : Cube α S) (s : St α S), CR P arity n c s →
    (∀ r ∈ rows, r.1.length = arity) → s.base.length + rows.length ≤ n →
    ∃ c' base', (∀ rest, run P arity c (rows.map (fun r => .add r.1 r.2) ++ rest) =
        (run P arity c' rest).map fun x => (x.1, List.replicate rows.length .unit ++ x.2)) ∧
      CR P arity n c' ⟨base', s.cube⟩ ∧ base'.length ≤ s.base.length + rows.length ∧
      ∀ k : List α, baseVal P base' k = if (addedTo P rows k).isEmpty then baseVal P s.base k
        else some ((addedTo P rows k).foldl P.add ((baseVal P s.base k).getD P.fresh))
  | [], c, s, h, _, _ => ⟨c, s.base, fun rest => by
      simp only [List.map_nil, List.nil_append, List.length_nil, List.replicate_zero]
      cases run P arity c rest <;> rfl, h, by simp, fun k => by simp [addedTo]⟩
  | r :: rows, c, s, h, hl, hn => by
    rw [List.length_cons] at hn
    have hr : r.1.length = arity := hl r (List.mem_cons_self ..)
    rcases step_ok ok hf h (.add r.1 r.2) hr with ho | ⟨c1, o, s1, e1, ⟨ho, hcube, hbase⟩, h1⟩
    · exact absurd ho (by show ¬ (n ≤ s.base.length); omega)
    · have hlen : s1.base.length ≤ s.base.length + 1 := by rw [hbase]; exact mput_length _ _ _ _
      obtain ⟨c2, base2, e2, h2, l2, hq2⟩ := adds_val ok hf rows c1 s1 h1 (fun x hx => hl x (List.mem_cons_of_mem _ hx)) (by omega)
      rw [hcube] at h2
      refine ⟨c2, base2, fun rest => ?_, h2, by rw [List.length_cons]; omega, fun k => ?_⟩
      · rw [List.map_cons, List.cons_append, run, e1]
        simp only [Res.bind_ok]
        rw [e2 rest, ho]
        cases run P arity c2 rest <;> simp [Res.map, List.replicate_succ]
      · have hput : baseVal P s1.base k = if tupleEq P.field r.1 k then some (P.add ((baseVal P s.base r.1).getD P.fresh) r.2) else baseVal P s.base k := by
          rw [hbase]
          exact mget_mput (withValues_ok (base_ok ok) P.fresh) s.base k r.1 _
        rw [hq2 k, hput]
        cases hrk : tupleEq P.field r.1 k with
        | false =>
          have : addedTo P (r :: rows) k = addedTo P rows k := by simp [addedTo, hrk]
          rw [this]; rfl
        | true =>
          have ha : addedTo P (r :: rows) k = r.2 :: addedTo P rows k := by simp [addedTo, hrk]
          have hc : baseVal P s.base r.1 = baseVal P s.base k := mget_congr (withValues_ok (base_ok ok) P.fresh) s.base hrk
          rw [ha, hc]
          cases hr : addedTo P rows k <;> simp

theorem tupleEq_iff {f : Tuple.Field α} : ∀ (a b : List α), tupleEq f a b = true ↔
    a.length = b.length ∧ ∀ (i : Nat) (x y : α), a[i]? = some x → b[i]? = some y → f.eq x y = true
  | [], [] => by simp [tupleEq]
  | x :: xs, y :: ys => by
    simp only [tupleEq, Bool.and_eq_true, tupleEq_iff xs ys, List.length_cons, Nat.add_right_cancel_iff]
    constructor
    · rintro ⟨h1, h2, h3⟩
      refine ⟨h2, fun i a b ha hb => ?_⟩
      cases i with
      | zero =>
        simp only [List.getElem?_cons_zero, Option.some.injEq] at ha hb
        subst ha; subst hb; exact h1
      | succ i =>
        simp only [List.getElem?_cons_succ] at ha hb
        exact h3 i a b ha hb
    · rintro ⟨h1, h2⟩
      exact ⟨h2 0 x y rfl rfl, h1, fun i a b ha hb => h2 (i + 1) a b (by simpa using ha) (by simpa using hb)⟩
  | [], _ :: _ => by simp [tupleEq]
  | _ :: _, [] => by simp [tupleEq]

theorem inColumn_rows (ok : P.Ok) {rows : List (List α × D)} {base : List (List α × S)}
    (hv : ∀ k : List α, baseVal P base k = if (addedTo P rows k).isEmpty then baseVal P ([] : List (List α × S)) k
        else some ((addedTo P rows k).foldl P.add ((baseVal P ([] : List (List α × S)) k).getD P.fresh))) (i : Nat) (v : α) :
    InColumn P base i v ↔ ∃ r ∈ rows, ∃ y, r.1[i]? = some y ∧ P.field.eq v y = true := by
  have transfer : ∀ (a b : List α) (y : α), tupleEq P.field a b = true → a[i]? = some y → P.field.eq v y = true →
      ∃ y', b[i]? = some y' ∧ P.field.eq v y' = true := by
    intro a b y hab hy hvy
    obtain ⟨h1, h2⟩ := (tupleEq_iff a b).1 hab
    have hi : i < b.length := by rw [← h1]; exact (List.getElem?_eq_some_iff.1 hy).1
    exact ⟨b[i], List.getElem?_eq_getElem hi, ok.field.trans _ _ _ hvy (h2 i _ _ hy (List.getElem?_eq_getElem hi))⟩
  constructor
  · rintro ⟨b, hb, y, hy, hvy⟩
    obtain ⟨w, hw⟩ := mget_isSome (ke := tupleEq P.field) hb (tupleEq_refl ok.field _)
    have hne : ¬ (addedTo P rows b.1).isEmpty = true := by
      intro he
      have := hv b.1
      rw [if_pos he] at this
      unfold baseVal at this
      rw [hw] at this; cases this
    have : ∃ r ∈ rows, tupleEq P.field r.1 b.1 = true := by
      simpa [addedTo] using hne
    obtain ⟨r, hr, hrb⟩ := this
    obtain ⟨y', hy', hv'⟩ := transfer _ _ y (tupleEq_symm ok.field _ _ hrb) hy hvy
    exact ⟨r, hr, y', hy', hv'⟩
  · rintro ⟨r, hr, y, hy, hvy⟩
    have hne : ¬ (addedTo P rows r.1).isEmpty = true := by
      simp only [addedTo, List.isEmpty_iff, List.map_eq_nil_iff, List.filter_eq_nil_iff]
      exact fun h => h r hr (tupleEq_refl ok.field _)
    have := hv r.1
    rw [if_neg hne] at this
    obtain ⟨b, hb, hrb⟩ := mget_mem this
    obtain ⟨y', hy', hv'⟩ := transfer _ _ y hrb hy hvy
    exact ⟨b, hb, y', hy', hv'⟩

theorem cubeKeys_perm (ok : P.Ok) {arity : Nat} {l l' : List (AnyTuple α × S)} (hp : l.Perm l') (h : CubeKeys P arity l') : CubeKeys P arity l :=
  ⟨fun x hx => h.1 x (hp.mem_iff.1 hx), (hp.pairwise_iff (fun {x y} h => by
      cases he : AnyTuple.eq P.field y.1 x.1 with
      | false => rfl
      | true =>
        have he' : AnyTuple.eq P.field x.1 y.1 = true := (cube_ok ok).symm _ _ he
        rw [he'] at h; cases h)).2 h.2⟩

/-- **C28.** After adding rows, `walkZeros` calls its function once for each combination of values seen in the columns, and for nothing
else; with the values added for that very tuple, in order, if there are any, and else with the empty statistic (or the one with a
single zero). -/
theorem walkZeros_all_combinations (P : Params α S D) (ok : P.Ok) (arity cap : Nat) (hf : P.Fits cap) (rows : List (List α × D))
    (hl : ∀ r ∈ rows, r.1.length = arity) (hcap : rows.length ≤ cap) (z : D) (cz : Bool) :
    ∃ c l, run P arity Cube.empty (rows.map (fun r => .add r.1 r.2) ++ [.walkZeros z cz]) =
        .ok (c, List.replicate rows.length .unit ++ [.base l]) ∧ BaseKeys P arity l ∧
      (∀ k : List α, k.length = arity → ((∃ x ∈ l, tupleEq P.field k x.1 = true) ↔
        ∀ (i : Nat) (v : α), k[i]? = some v → ∃ r ∈ rows, ∃ y, r.1[i]? = some y ∧ P.field.eq v y = true)) ∧
      ∀ x ∈ l, x.2 = if (addedTo P rows x.1).isEmpty then (if cz then P.add P.fresh z else P.fresh)
        else (addedTo P rows x.1).foldl P.add P.fresh := by
  obtain ⟨c1, base, e1, h1, _, hv⟩ := adds_val ok hf rows Cube.empty ⟨[], []⟩ (cr_empty P arity cap) hl (by simpa using hcap)
  rcases step_ok ok hf h1 (.walkZeros z cz) trivial with ho | ⟨c2, o2, s2, e2, ⟨_, l, ho2, hd, hx, hall⟩, _⟩
  · exact ho.elim
  have hcol := inColumn_rows ok hv
  refine ⟨c2, l, ?_, ⟨fun x hx' => (hx x hx').1, hd⟩, fun k hk => ?_, fun x hx' => ?_⟩
  · rw [e1]
    simp only [run, e2, Res.bind_ok, ho2]
    rfl
  · constructor
    · rintro ⟨x, hx', hkx⟩ i v hiv
      obtain ⟨h1, h2, _⟩ := hx x hx'
      obtain ⟨g1, g2⟩ := (tupleEq_iff k x.1).1 hkx
      have hi : i < x.1.length := by rw [← g1]; exact (List.getElem?_eq_some_iff.1 hiv).1
      obtain ⟨r, hr, y, hy, hyv⟩ := (hcol i _).1 (h2 i _ (List.getElem?_eq_getElem hi))
      exact ⟨r, hr, y, hy, ok.field.trans _ _ _ (g2 i _ _ hiv (List.getElem?_eq_getElem hi)) hyv⟩
    · intro h
      exact hall k hk fun i v hiv => (hcol i v).2 (h i v hiv)
  · rw [(hx x hx').2.2, hv x.1]
    split <;> rfl

/-- Rows `(1,2)` and `(3,4)`: four calls, two of them with the counted zero. -/
example : ((run exP 2 Cube.empty [.add [1, 2] 10, .add [3, 4] 20, .add [1, 2] 30, .walkZeros 0 true]).map (fun r => r.2.map fun o =>
    match o with
    | .base l => l
    | _ => [])) =
    .ok [[], [], [], [([1, 2], [10, 30]), ([1, 4], [0]), ([3, 2], [0]), ([3, 4], [20])]] := by decide +kernel

/-! ## C86: an emptied column -/

/-- The comment of `zeroCube` says that clearing out one of the sets is the equivalent of requiring that value to be any. It is not: nothing
at all is added. -/
theorem zeroCube_emptied_column (P : Params α S D) (z : D) (cz : Bool) (c : Cube α S) (hs : List (Table α)) :
    zeroCubeIn P z c (empty' :: hs) cz = .ok c := by
  have hw : walk (empty' : Table α) = .ok [] := rfl
  simp [zeroCubeIn, walkZerosIn, zeroWalk, hw, forEach, addAllToCube]

/-- With every column kept, `zeroCube` of one row gives its wildcards; with the first one emptied, an empty cube. -/
example : (do
      let c ← htsAdd exP PMap.empty [1, 2] 10
      let h ← fillHut exP 2 c
      let q ← zeroCubeIn exP 0 ⟨c, .empty⟩ h false
      let q' ← zeroCubeIn exP 0 ⟨c, .empty⟩ (empty' :: h.drop 1) false
      let l ← pwalkOrdered (fun a b => AnyTuple.lt exP.field a b) q.cube
      let l' ← pwalkOrdered (fun a b => AnyTuple.lt exP.field a b) q'.cube
      pure (l.map fun (x : AnyTuple Nat × List Nat) => (x.1.view.map fun (o : Option Nat) => o.getD 99, x.2), l'.map fun (x : AnyTuple Nat × List Nat) => x.2)) =
    .ok ([([1, 99], [10]), ([99, 2], [10]), ([99, 99], [10])], []) := by decide +kernel

/-- C86. What the emptied column was claimed to mean: the cube has the entries whose first field is a wildcard. -/
def EmptiedIsAny (P : Params α S D) (z : D) (c : Cube α S) (h : Table α) (hs : List (Table α)) : Prop :=
  ∀ full emptied lf le, zeroCubeIn P z c (h :: hs) false = .ok full → zeroCubeIn P z c (empty' :: hs) false = .ok emptied →
    pwalk full.cube = .ok lf → pwalk emptied.cube = .ok le → ∀ x ∈ lf, x.1.any.head? = some true → ∃ y ∈ le, x.1.eq P.field y.1 = true

/-- The claim fails for a single row. -/
theorem emptied_column_not_any : ∃ (c : Cube Nat (List Nat)) (h : Table Nat) (hs : List (Table Nat)), ¬ EmptiedIsAny exP 0 c h hs := by
  have key : (do
      let c ← htsAdd exP PMap.empty [1, 2] 10
      let h ← fillHut exP 2 c
      match h with
      | h :: hs => do
        let q ← zeroCubeIn exP 0 ⟨c, .empty⟩ (h :: hs) false
        let l ← pwalk q.cube
        pure (l.any fun x => x.1.any.head? == some true)
      | [] => pure false) = .ok true := by decide +kernel
  obtain ⟨c, ec, key⟩ := Res.bind_eq_ok.1 key
  obtain ⟨h, eh, key⟩ := Res.bind_eq_ok.1 key
  match h, key with
  | [], key => cases key
  | h :: hs, key =>
    obtain ⟨q, eq, key⟩ := Res.bind_eq_ok.1 key
    obtain ⟨l, el, key⟩ := Res.bind_eq_ok.1 key
    refine ⟨⟨c, .empty⟩, h, hs, fun hE => ?_⟩
    have hk : (l.any fun x => x.1.any.head? == some true) = true := by
      simpa using key
    obtain ⟨x, hx, hxa⟩ := List.any_eq_true.1 hk
    have he : pwalk (PMap.empty : PMap (AnyTuple Nat) (List Nat)) = .ok [] := rfl
    obtain ⟨y, hy, _⟩ := hE _ _ l [] eq (zeroCube_emptied_column exP 0 false ⟨c, .empty⟩ hs) el he x hx (by simpa using hxa)
    cases hy

/-- C28, C86, the part that holds: with the sets that `zeroCube` fills itself, it does the work of `cube` on the rows of `walkZeros`. The cube gets an
entry for each wanted tuple with wildcards whose other fields are values of their columns. -/
theorem zeroCube_columns_partial (P : Params α S D) (ok : P.Ok) (arity cap : Nat) (hf : P.Fits cap) (rows : List (List α × D))
    (hl : ∀ r ∈ rows, r.1.length = arity) (hcap : rows.length ^ arity * 2 ^ arity ≤ cap) (hcap' : rows.length ≤ cap) (z : D) (cz : Bool)
    (hw : ∀ b k k', AnyTuple.eq P.field k k' = true → P.wanted b k = P.wanted b k') :
    ∃ c l, run P arity Cube.empty (rows.map (fun r => .add r.1 r.2) ++ [.zeroCube z cz, .walk]) =
        .ok (c, List.replicate rows.length .unit ++ [.unit, .cube l]) ∧ CubeKeys P arity l ∧
      ∀ q : AnyTuple α, q.data.length = arity → q.any.length = arity →
        ((∃ x ∈ l, AnyTuple.eq P.field x.1 q = true) ↔ P.wanted (q.any.any id) q = true ∧
          ∃ k : List α, k.length = arity ∧ agrees P q k = true ∧
            ∀ (i : Nat) (v : α), k[i]? = some v → ∃ r ∈ rows, ∃ y, r.1[i]? = some y ∧ P.field.eq v y = true) := by
  obtain ⟨c1, base, e1, h1, l1, hv⟩ := adds_val ok hf rows Cube.empty ⟨[], []⟩ (cr_empty P arity cap) hl (by simpa using hcap')
  simp only [List.length_nil, Nat.zero_add] at l1
  have hcol := inColumn_rows ok hv
  rcases step_ok ok hf h1 (.zeroCube z cz) trivial with ho | ⟨c2, o2, s2, e2, ⟨ho2, hb2, order, hz, hof⟩, h2⟩
  · have ho' : cap < 0 + base.length ^ arity * 2 ^ arity := ho
    have : base.length ^ arity * 2 ^ arity ≤ rows.length ^ arity * 2 ^ arity := Nat.mul_le_mul_right _ (Nat.pow_le_pow_left l1 _)
    omega
  rcases step_ok ok hf h2 .walk trivial with ho | ⟨c3, o3, s3, e3, ⟨_, l, hl3, hperm3⟩, h3⟩
  · exact ho.elim
  refine ⟨c3, l, ?_, cubeKeys_perm ok hperm3 hof.1, fun q hd ha => ?_⟩
  · rw [e1]
    simp only [run, e2, e3, Res.bind_ok, ho2, hl3]
    rfl
  · have hval := hof.2 q hd ha
    have hold : cubeVal P ([] : List (AnyTuple α × S)) q = none := rfl
    simp only [] at hval
    rw [hold] at hval
    have hmem : (∃ x ∈ l, AnyTuple.eq P.field x.1 q = true) ↔ ∃ v, cubeVal P s2.cube q = some v := by
      constructor
      · rintro ⟨x, hx, he⟩
        exact mget_isSome (hperm3.mem_iff.1 hx) ((cube_ok ok).symm _ _ he)
      · rintro ⟨v, hv⟩
        obtain ⟨x, hx, he⟩ := mget_mem hv
        exact ⟨x, hperm3.mem_iff.2 hx, (cube_ok ok).symm _ _ he⟩
    have hcnt : (∃ v, cubeVal P s2.cube q = some v) ↔ ∃ b ∈ order, agrees P q b.1 = true ∧ P.wanted (q.any.any id) ⟨b.1, q.any⟩ = true := by
      rw [hval]
      have he : (counted P order q).isEmpty = true ↔ ¬ ∃ b ∈ order, agrees P q b.1 = true ∧ P.wanted (q.any.any id) ⟨b.1, q.any⟩ = true := by
        simp [counted]
      split
      · next h => simp only [he.1 h]; simp
      · next h =>
        have := fun hn => h (he.2 hn)
        simp only [Option.some.injEq, exists_eq', true_iff]
        exact Classical.byContradiction this
    rw [hmem, hcnt]
    constructor
    · rintro ⟨b, hb, hag, hwt⟩
      obtain ⟨g1, g2, _⟩ := hz.2.1 b hb
      rw [hw _ _ q ((agrees_iff ok q b.1 (by omega) (by omega)).1 hag)] at hwt
      exact ⟨hwt, b.1, g1, hag, fun i v hi => (hcol i v).1 (g2 i v hi)⟩
    · rintro ⟨hwt, k, hk, hag, hall⟩
      obtain ⟨b, hb, hkb⟩ := hz.2.2 k hk (fun i v hi => (hcol i v).2 (hall i v hi))
      have hag' : agrees P q b.1 = true := by
        rw [← agrees_congr ok q (by omega) (by omega) hkb]; exact hag
      have hbl : b.1.length = arity := (hz.2.1 b hb).1
      refine ⟨b, hb, hag', ?_⟩
      rw [hw _ _ q ((agrees_iff ok q b.1 (by omega) (by omega)).1 hag')]
      exact hwt

/-! ## C87: the statistics objects -/

/-- The tables have room for what the call may add. -/
def Room (arity cap : Nat) (c : Cube α S) : Op α S D → Prop
  | .add _ _ => size c.base.data < cap
  | .addToCube _ _ => size c.cube.data + 2 ^ arity ≤ cap
  | .cube => size c.cube.data + size c.base.data * 2 ^ arity ≤ cap
  | .zeroCube _ _ => size c.cube.data + size c.base.data ^ arity * 2 ^ arity ≤ cap
  | _ => True

/-- The calls of a history have room. -/
def AllRoom (P : Params α S D) (arity cap : Nat) : Cube α S → List (Op α S D) → Prop
  | _, [] => True
  | c, op :: ops => Room arity cap c op ∧ ∀ c' o, step P arity c op = .ok (c', o) → AllRoom P arity cap c' ops

/-- No statistics object is left. -/
def NoObjects (c : Cube α S) : Prop :=
  (∀ (p : Nat) (s : S), c.base.heap[p]? ≠ some (some s)) ∧ ∀ (p : Nat) (s : S), c.cube.heap[p]? ≠ some (some s)

theorem run_room (ok : P.Ok) {arity cap : Nat} (hf : P.Fits cap) : ∀ (ops : List (Op α S D)) (c : Cube α S) (s : St α S), CR P arity cap c s →
    (∀ op ∈ ops, Typed arity op) → AllRoom P arity cap c ops → ∃ c' outs s', run P arity c ops = .ok (c', outs) ∧ CR P arity cap c' s'
  | [], c, s, h, _, _ => ⟨c, [], s, rfl, h⟩
  | op :: ops, c, s, h, ht, hr => by
    rcases step_ok ok hf h op (ht op (List.mem_cons_self ..)) with ho | ⟨c1, o, s1, e1, _, h1⟩
    · have hb := pr_size h.base
      have hq := pr_size h.cube
      have hr1 := hr.1
      cases op with
      | add k d => simp only [Room, Over, hb] at hr1 ho; omega
      | addToCube k d => simp only [Room, Over, hq] at hr1 ho; omega
      | cube => simp only [Room, Over, hq, hb] at hr1 ho; omega
      | zeroCube z cz => simp only [Room, Over, hq, hb] at hr1 ho; omega
      | _ => exact ho.elim
    · obtain ⟨c2, outs, s2, e2, h2⟩ := run_room ok hf ops c1 s1 h1 (fun x hx => ht x (List.mem_cons_of_mem _ hx)) (hr.2 c1 o e1)
      exact ⟨c2, o :: outs, s2, by simp [run, e1, e2], h2⟩

theorem run_append (arity : Nat) : ∀ (ops ops' : List (Op α S D)) (c : Cube α S),
    run P arity c (ops ++ ops') = (do
      let r ← run P arity c ops
      let q ← run P arity r.1 ops'
      pure (q.1, r.2 ++ q.2))
  | [], ops', c => by
    simp only [List.nil_append, run, Res.bind_ok]
    cases run P arity c ops' <;> rfl
  | op :: ops, ops', c => by
    simp only [List.cons_append, run]
    cases step P arity c op with
    | ok r =>
      simp only [Res.bind_ok, run_append arity ops ops' r.1]
      cases run P arity r.1 ops with
      | ok q => 
        simp only [Res.bind_ok, Res.pure_eq]
        cases hq : run P arity q.1 ops' <;> simp [hq]
      | _ => rfl
    | _ => rfl

/-- **C87.** Whatever was called before, no deleted or null statistic was used and none deleted twice (the outcome is not `ub`), and the final
`clear()`, which is also what the destructors do, deletes every statistic that was created and not yet deleted. -/
theorem cube_objects_freed (P : Params α S D) (ok : P.Ok) (arity cap : Nat) (hf : P.Fits cap) (ops : List (Op α S D))
    (ht : ∀ op ∈ ops, Typed arity op) (hr : AllRoom P arity cap Cube.empty ops) :
    ∃ c outs, run P arity Cube.empty (ops ++ [.clear true]) = .ok (c, outs) ∧ NoObjects c := by
  obtain ⟨c, outs, s, e, h⟩ := run_room ok hf ops _ _ (cr_empty P arity cap) ht hr
  obtain ⟨b, eb, _, nb⟩ := pr_clear h.base
  obtain ⟨q, eq, _, nq⟩ := pr_clear h.cube
  refine ⟨⟨b, q⟩, outs ++ [.unit], ?_, nb, nq⟩
  rw [run_append, e]
  simp [run, step, eb, eq]

/-- Objects are created and deleted: a history with two rows, a cube of four entries, a prune and a clear. -/
example : ((run exP 2 Cube.empty [.add [1, 2] 10, .add [1, 3] 20, .cube, .prune (fun k => k.any.all id), .clear true]).map
    (fun r => (r.1.base.heap, r.1.cube.heap))) = .ok ([none, none], [none, none, none, none]) := by decide +kernel

end

end Verif.Cube
