import Verif.Quantile.Cache
import Verif.Quantile.Ctor3

/-! # The cache of sizes changes nothing (C231) -/

namespace Verif.Quantile

open Verif

variable (R : Flt.Rounding)

/-! ## Specification -/

/-- What two constructors are asked for is the same: the number of values counts as at least 100. -/
def SameSizes (a b : Rat × Nat) : Prop := a.1 = b.1 ∧ max 100 a.2 = max 100 b.2

/-- The constructor gets past its checks of the arguments. -/
def Passes (a : Rat × Nat) : Prop := 0 ≤ a.1 ∧ a.1 < R.rnd (2 / 10) ∧ 1 < a.2

/-! ## Lemmas -/

theorem max_ite (n : Nat) : (if n < 100 then 100 else n) = max 100 n := by split <;> omega

theorem toI32_toU32 (x : Int) (h1 : -2147483648 ≤ x) (h2 : x < 2147483648) : toI32 (toU32 x) = x := by
  unfold toI32 toU32
  split <;> omega

theorem rnd_fifth : R.rnd (2 / 10) ≤ 2001 / 10000 := by
  have e := R.err (2 / 10)
  rw [abs_le] at e
  norm_num at e ⊢
  have : R.rnd (1 / 5) = R.rnd (2 / 10) := by norm_num
  linarith [e.2]

theorem hashOk_of {ε : Rat} (h0 : 0 ≤ ε) (h : ε < R.rnd (2 / 10)) : hashOk R.rnd ε = true := by
  have hf := rnd_fifth R
  have z : R.rnd (0 : Rat) = 0 := R.exact (by simpa using Flt.isDouble_int 0 (by norm_num))
  have y : R.rnd (1000000000 : Rat) = 1000000000 := R.exact (by simpa using Flt.isDouble_int 1000000000 (by norm_num))
  have h1 : 0 ≤ R.rnd (ε * 1000000000) := by rw [← z]; exact R.mono (by linarith)
  have h2 : R.rnd (ε * 1000000000) ≤ 1000000000 := by
    have := R.mono (x := ε * 1000000000) (y := 1000000000) (by linarith)
    rwa [y] at this
  unfold hashOk
  rw [decide_eq_true_eq]
  exact ⟨by linarith, by linarith⟩

theorem search_range (ε : Rat) (n : Nat) (h0 : 0 < n) (h1 : n ≤ 10 ^ 13) :
    (-2147483648 ≤ (search R.rnd ε n).1 ∧ (search R.rnd ε n).1 < 2147483648) ∧ (-2147483648 ≤ (search R.rnd ε n).2 ∧ (search R.rnd ε n).2 < 2147483648) := by
  have hNr : R.rnd (n : Rat) = n := R.exact (by simpa using Flt.isDouble_int n (by rw [abs_of_nonneg (by positivity)]; norm_num; omega))
  unfold search
  rw [hNr]
  generalize R.rnd (R.rnd (2 * ε) * n) = bd
  have hp := pick_spec R bd n (fun b hb hb' => (ksize_ok R bd n b hb hb' h0 h1).1) (List.range' 2 28) [] none
    (by intro b hb; simp [List.mem_range'] at hb; omega) (by simp) (by simp)
  cases hf : (List.range' 2 28).foldl (betterB R.rnd bd n) none with
  | none => simp
  | some p =>
    obtain ⟨b0, k0⟩ := p
    obtain ⟨g1, g2, g3⟩ := hp.1 b0 k0 hf
    have hb0 : 2 ≤ b0 ∧ b0 ≤ 29 := by simp [List.mem_range'] at g1; omega
    obtain ⟨k1, k2, k3⟩ := ksize_ok R bd n b0 hb0.1 hb0.2 h0 h1
    have hpos : 0 < k0 := by rw [g2]; exact k1
    have hk0 : k0 < 1000000000 := by
      have : (2 : Int) ≤ b0 := by exact_mod_cast hb0.1
      nlinarith
    simp only []
    omega

theorem search_sized (ε : Rat) (inN : Nat) (h1 : ε < R.rnd (2 / 10)) (h2 : 1 < inN) :
    sized (search R.rnd ε (max 100 inN)).1 (search R.rnd ε (max 100 inN)).2 = ctor R.rnd ε inN := by
  unfold search ctor
  rw [decide_eq_true h1, Res.require_true, Res.bind_ok, decide_eq_true h2, Res.require_true, Res.bind_ok]
  simp only []
  have hb : ∀ (l : List Nat) (bd N : Rat) (o : Option (Nat × Int)), (∀ b ∈ l, 0 < b) → (∀ p, o = some p → 0 < p.1) → ∀ p, l.foldl (betterB R.rnd bd N) o = some p → 0 < p.1 := by
    intro l bd N
    induction l with
    | nil => intro o _ h p e; exact h p e
    | cons b l ih =>
      intro o hl ho
      refine ih _ (fun b hb => hl b (List.mem_cons_of_mem _ hb)) ?_
      intro p e
      have hb := hl b (List.mem_cons_self ..)
      unfold betterB at e
      split at e
      · split at e
        · rw [← Option.some.inj e]; exact hb
        · split at e
          · rw [← Option.some.inj e]; exact hb
          · rw [← Option.some.inj e]; exact ho _ rfl
      · exact ho p e
  cases hf : (List.range' 2 28).foldl (betterB R.rnd (R.rnd (R.rnd (2 * ε) * R.rnd ((max 100 inN : Nat) : Rat))) (R.rnd ((max 100 inN : Nat) : Rat))) none with
  | none => rfl
  | some p =>
    obtain ⟨b, k⟩ := p
    have hb0 : 0 < b := hb _ _ _ none (by intro b hb; simp [List.mem_range'] at hb; omega) (by simp) (b, k) hf
    simp only []
    unfold sized
    by_cases hk : 0 < k
    · rw [if_pos ⟨by exact_mod_cast hb0, hk⟩]
      simp only [hk, decide_true, Res.require_true, Res.bind_ok, Res.pure_eq, Int.toNat_natCast]
      congr 2
      split <;> omega
    · rw [if_neg (fun h => hk h.2)]
      simp [hk]

/-- The entries of the cache are what the search finds. -/
def CInv (ca : Cache) : Prop := ∀ e ∈ ca, 0 < e.1.2 ∧ e.1.2 ≤ 10 ^ 13 ∧ e.2 = (toU32 (search R.rnd e.1.1 e.1.2).1, toU32 (search R.rnd e.1.1 e.1.2).2)

theorem find_some {ca : Cache} {key : Rat × Nat} {v : Nat × Nat} (h : ca.find key = some v) : (key, v) ∈ ca := by
  unfold Cache.find at h
  obtain ⟨e, he, rfl⟩ := Option.map_eq_some_iff.1 h
  have h1 := List.find?_some he
  rw [decide_eq_true_eq] at h1
  rw [← h1]
  exact List.mem_of_find?_eq_some he

theorem ctorCached_spec {ca : Cache} (hca : CInv R ca) {ε : Rat} {inN : Nat} (h0 : 0 ≤ ε) (hN : inN ≤ 10 ^ 13) :
    (ctorCached R.rnd ca ε inN).2.2 = ctor R.rnd ε inN ∧ CInv R (ctorCached R.rnd ca ε inN).1 := by
  unfold ctorCached
  by_cases h1 : ε < R.rnd (2 / 10)
  · rw [if_neg (by simpa using h1)]
    by_cases h2 : 1 < inN
    · rw [if_neg (by simpa using h2), hashOk_of R h0 h1, if_neg (by simp)]
      simp only [max_ite]
      cases hf : ca.find (ε, max 100 inN) with
      | some v =>
        obtain ⟨_, _, he⟩ := hca _ (find_some hf)
        simp only [] at he
        subst he
        obtain ⟨⟨r1, r2⟩, r3, r4⟩ := search_range R ε (max 100 inN) (by omega) (by omega)
        simp only []
        rw [toI32_toU32 _ r1 r2, toI32_toU32 _ r3 r4]
        exact ⟨search_sized R ε inN h1 h2, hca⟩
      | none =>
        refine ⟨search_sized R ε inN h1 h2, ?_⟩
        intro e he
        rcases List.mem_cons.1 he with rfl | he
        · exact ⟨by show 0 < max 100 inN; omega, by show max 100 inN ≤ 10 ^ 13; omega, rfl⟩
        · split at he
          · exact absurd he (by simp)
          · exact hca e he
    · rw [if_pos (by simpa using h2)]
      refine ⟨?_, hca⟩
      unfold ctor
      rw [decide_eq_true h1, Res.require_true, Res.bind_ok, decide_eq_false h2, Res.require_false, Res.bind_abort]
  · rw [if_pos (by simpa using h1)]
    refine ⟨?_, hca⟩
    unfold ctor
    rw [decide_eq_false h1, Res.require_false, Res.bind_abort]

theorem ctors_spec : ∀ (l : List (Rat × Nat)) {ca : Cache}, CInv R ca → (∀ a ∈ l, 0 ≤ a.1 ∧ a.2 ≤ 10 ^ 13) →
    (ctors R.rnd ca l).2.map (·.2) = l.map fun a => ctor R.rnd a.1 a.2
  | [], _, _, _ => rfl
  | (ε, n) :: l, ca, hca, hl => by
    obtain ⟨h0, hN⟩ := hl _ (List.mem_cons_self ..)
    obtain ⟨h1, h2⟩ := ctorCached_spec R hca h0 hN
    have h3 := ctors_spec l h2 fun a ha => hl a (List.mem_cons_of_mem _ ha)
    simp only [ctors, List.map_cons, h1, h3]

theorem ctorCached_small (r : Rat → Rat) {ca : Cache} (h : ca.length ≤ 1001) (ε : Rat) (n : Nat) : (ctorCached r ca ε n).1.length ≤ 1001 := by
  unfold ctorCached
  split
  · exact h
  · split
    · exact h
    · split
      · exact h
      · simp only []
        split
        · exact h
        · rw [List.length_cons]
          split
          · simp
          · omega

/-! ## Theorems -/

/-- C231: whatever sketches were constructed before, with success or not, each gets the sizes that it would get as the first one. -/
theorem cache_transparent_partial (l : List (Rat × Nat)) (hl : ∀ a ∈ l, 0 ≤ a.1 ∧ a.2 ≤ 10 ^ 13) :
    (ctors R.rnd [] l).2.map (·.2) = l.map fun a => ctor R.rnd a.1 a.2 := ctors_spec R l (by intro e he; simp at he) hl

/-- C231: the cache has never more than 1001 entries. -/
theorem cache_small (r : Rat → Rat) (l : List (Rat × Nat)) : (ctors r [] l).1.length ≤ 1001 := by
  have : ∀ (l : List (Rat × Nat)) (ca : Cache), ca.length ≤ 1001 → (ctors r ca l).1.length ≤ 1001 := by
    intro l
    induction l with
    | nil => exact fun _ h => h
    | cons a l ih => exact fun ca h => ih _ (ctorCached_small r h a.1 a.2)
  exact this l [] (by simp)

theorem find_mem {ca : Cache} {key : Rat × Nat} : (ca.find key).isSome = true ↔ key ∈ ca.map (·.1) := by
  unfold Cache.find
  simp only [Option.isSome_map, List.find?_isSome, decide_eq_true_eq, List.mem_map]

/-- The keys of the calls that get past the checks. -/
def keyOf (a : Rat × Nat) : Rat × Nat := (a.1, max 100 a.2)

theorem ctors_append (r : Rat → Rat) : ∀ (l m : List (Rat × Nat)) (ca : Cache),
    ctors r ca (l ++ m) = ((ctors r (ctors r ca l).1 m).1, (ctors r ca l).2 ++ (ctors r (ctors r ca l).1 m).2)
  | [], _, _ => rfl
  | a :: l, m, ca => by
    have := ctors_append r l m (ctorCached r ca a.1 a.2).1
    simp only [List.cons_append, ctors, this]

/-- While at most 1001 keys occur, nothing is forgotten. -/
theorem kept (K : List (Rat × Nat)) (hK : K.length ≤ 1001) (r : Rat → Rat) (l : List (Rat × Nat)) : ∀ (ca : Cache), (ca.map (·.1)).Nodup → (∀ k ∈ ca.map (·.1), k ∈ K) →
    (∀ a ∈ l, keyOf a ∈ K) → (((ctors r ca l).1.map (·.1)).Nodup ∧ (∀ k ∈ (ctors r ca l).1.map (·.1), k ∈ K)) ∧ (∀ k ∈ ca.map (·.1), k ∈ (ctors r ca l).1.map (·.1)) := by
  induction l with
  | nil => exact fun ca h1 h2 _ => ⟨⟨h1, h2⟩, fun _ h => h⟩
  | cons a l ih =>
    intro ca h1 h2 hl
    have step : ((((ctorCached r ca a.1 a.2).1).map (·.1)).Nodup ∧ (∀ k ∈ ((ctorCached r ca a.1 a.2).1).map (·.1), k ∈ K)) ∧
        (∀ k ∈ ca.map (·.1), k ∈ ((ctorCached r ca a.1 a.2).1).map (·.1)) := by
      unfold ctorCached
      split
      · exact ⟨⟨h1, h2⟩, fun _ h => h⟩
      · split
        · exact ⟨⟨h1, h2⟩, fun _ h => h⟩
        · split
          · exact ⟨⟨h1, h2⟩, fun _ h => h⟩
          · simp only [max_ite]
            cases hf : ca.find (a.1, max 100 a.2) with
            | some v => exact ⟨⟨h1, h2⟩, fun _ h => h⟩
            | none =>
              have hn : keyOf a ∉ ca.map (·.1) := by
                intro h
                have h := find_mem.2 h
                unfold keyOf at h
                rw [hf] at h
                cases h
              have hk := hl a (List.mem_cons_self ..)
              have hnd : (keyOf a :: ca.map (·.1)).Nodup := List.nodup_cons.2 ⟨hn, h1⟩
              have hle : (keyOf a :: ca.map (·.1)).length ≤ K.length := by
                refine (List.subperm_of_subset hnd ?_).length_le
                intro k hk'
                rcases List.mem_cons.1 hk' with rfl | hk'
                · exact hk
                · exact h2 k hk'
              rw [List.length_cons, List.length_map] at hle
              have hlen : ¬ ca.length > 1000 := by omega
              simp only [if_neg hlen, List.map_cons]
              refine ⟨⟨hnd, ?_⟩, fun k hk => List.mem_cons_of_mem _ hk⟩
              intro k hk'
              rcases List.mem_cons.1 hk' with rfl | hk'
              · exact hk
              · exact h2 k hk'
    obtain ⟨⟨s1, s2⟩, s3⟩ := step
    obtain ⟨i1, i2⟩ := ih _ s1 s2 fun a ha => hl a (List.mem_cons_of_mem _ ha)
    exact ⟨i1, fun k hk => i2 k (s3 k hk)⟩

/-- C231: a program that uses at most 1001 different sizes searches for each only once: between two constructors for the same sizes anything may happen, the second one does not search. -/
theorem cache_hits (K : List (Rat × Nat)) (hK : K.length ≤ 1001) (l m : List (Rat × Nat)) (a b : Rat × Nat) (ha : Passes R a) (hs : SameSizes a b)
    (hl : ∀ x ∈ l ++ a :: m, ∃ k ∈ K, SameSizes k x) : (ctorCached R.rnd (ctors R.rnd [] (l ++ a :: m)).1 b.1 b.2).2.1 = false := by
  set K' := K.map keyOf with hK'
  have hk : ∀ x ∈ l ++ a :: m, keyOf x ∈ K' := by
    intro x hx
    obtain ⟨k, hk, e1, e2⟩ := hl x hx
    refine List.mem_map.2 ⟨k, hk, ?_⟩
    unfold keyOf
    rw [e1, e2]
  have hlen : K'.length ≤ 1001 := by rw [hK', List.length_map]; exact hK
  obtain ⟨⟨n1, n2⟩, _⟩ := kept K' hlen R.rnd l [] (by simp) (by simp) fun x hx => hk x (List.mem_append_left _ hx)
  obtain ⟨⟨n3, n4⟩, _⟩ := kept K' hlen R.rnd [a] (ctors R.rnd [] l).1 n1 n2 fun x hx => by
    rw [List.mem_singleton] at hx; subst hx; exact hk x (by simp)
  obtain ⟨_, n5⟩ := kept K' hlen R.rnd m (ctors R.rnd (ctors R.rnd [] l).1 [a]).1 n3 n4 fun x hx => hk x (by simp [hx])
  have hin : keyOf a ∈ (ctors R.rnd (ctors R.rnd [] l).1 [a]).1.map (·.1) := by
    simp only [ctors]
    unfold ctorCached
    rw [if_neg (by simpa using ha.2.1), if_neg (by simpa using ha.2.2), hashOk_of R ha.1 ha.2.1, if_neg (by simp)]
    simp only [max_ite]
    cases hf : (ctors R.rnd [] l).1.find (a.1, max 100 a.2) with
    | some v => exact find_mem.1 (by show (Cache.find _ (a.1, max 100 a.2)).isSome = true; rw [hf]; rfl)
    | none => exact List.mem_cons_self ..
  have hin2 := n5 _ hin
  have he : ctors R.rnd [] (l ++ a :: m) = ctors R.rnd [] (l ++ ([a] ++ m)) := rfl
  rw [he, ctors_append, ctors_append]
  generalize (ctors R.rnd (ctors R.rnd (ctors R.rnd [] l).1 [a]).1 m).1 = ca at hin2
  unfold ctorCached
  split
  · rfl
  · split
    · rfl
    · split
      · rfl
      · simp only [max_ite]
        have hb : (b.1, max 100 b.2) = keyOf a := by unfold keyOf; rw [hs.1, hs.2]
        rw [hb]
        have := find_mem.2 hin2
        cases hf : ca.find (keyOf a) with
        | some v => rfl
        | none => rw [hf] at this; cases this

/-- A negative error gets past the check, and would get sizes, but the hash of it is undefined behaviour. -/
theorem cache_negative_false : (ctorCached R.rnd [] (-1) 1000).2.2 = .ub ∧ ctor R.rnd (-1) 1000 ≠ .abort := by
  have y : R.rnd (-1 * 1000000000 : Rat) = -1000000000 := by
    have : R.rnd (-1000000000 : Rat) = -1000000000 := R.exact (by simpa using Flt.isDouble_int (-1000000000) (by norm_num))
    norm_num at this ⊢
    exact this
  have z : R.rnd (0 : Rat) = 0 := R.exact (by simpa using Flt.isDouble_int 0 (by norm_num))
  have h1 : (-1 : Rat) < R.rnd (2 / 10) := by
    have : R.rnd (0 : Rat) ≤ R.rnd (2 / 10) := R.mono (by norm_num)
    rw [z] at this
    linarith
  refine ⟨?_, ?_⟩
  · unfold ctorCached
    rw [if_neg (by simpa using h1), if_neg (by decide), if_pos]
    unfold hashOk
    rw [y]
    decide
  · obtain ⟨b, k, e⟩ : ∃ b k, ctor R.rnd (-1) 1000 = .ok (b, k) := by
      refine ctor_exists R h1 (by decide) (by norm_num) (b' := 2) (Nat.le_refl 2) (by omega) ?_
      have hk := (ksize_ok R (R.rnd (R.rnd (2 * -1) * ((max 100 1000 : Nat) : Rat))) (max 100 1000) 2 (Nat.le_refl 2) (by omega) (by decide) (by norm_num)).2.2
      have hr := room_pos R (R.rnd (R.rnd (2 * -1) * ((max 100 1000 : Nat) : Rat))) 2 (Nat.le_refl 2)
      generalize ksize R.rnd (R.rnd (R.rnd (2 * -1) * ((max 100 1000 : Nat) : Rat))) ((max 100 1000 : Nat) : Rat) 2 = kk at hk
      generalize roomOf R (R.rnd (R.rnd (2 * -1) * ((max 100 1000 : Nat) : Rat))) 2 = rr at hk hr
      have hr1 : (1 : Rat) ≤ rr := by exact_mod_cast hr
      have h2 : ((max 100 1000 : Nat) : Rat) / rr ≤ 1000 := by
        rw [show ((max 100 1000 : Nat) : Rat) = 1000 by norm_num]
        exact div_le_self (by norm_num) hr1
      have h3 : (kk : Rat) < 2000 := by
        have : ((max 100 1000 : Nat) : Rat) / rr * (1 + 1 / 10 ^ 12) ≤ 1000 * (1 + 1 / 10 ^ 12) := mul_le_mul_of_nonneg_right h2 (by norm_num)
        norm_num at this hk ⊢
        linarith
      have h4 : kk < 2000 := by exact_mod_cast h3
      push_cast
      omega
    rw [e]
    exact fun h => by cases h

example (R : Flt.Rounding) : (∀ a ∈ [(1 / 10, 5000), (1 / 10, 50), (1 / 5, 1)], (0 : Rat) ≤ a.1 ∧ a.2 ≤ 10 ^ 13) ∧ ctor R.rnd (R.rnd (1 / 10)) 5000 = .ok (13, 11) :=
  ⟨by norm_num, ctor_5000 R⟩

example (R : Flt.Rounding) : Passes R (1 / 100, 1000) ∧ SameSizes (1 / 100, 3) (1 / 100, 99) := by
  refine ⟨⟨by norm_num, ?_, by decide⟩, rfl, rfl⟩
  have e := R.err (2 / 10)
  rw [abs_le] at e
  norm_num at e ⊢
  linarith [e.1]

end Verif.Quantile
