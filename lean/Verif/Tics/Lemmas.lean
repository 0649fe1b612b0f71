import Verif.Tics.Model

/-!
# Lemmas on the ticks of plots
-/

namespace Verif.Tics

theorem ite_fact {P : Int → Prop} {c : Prop} [Decidable c] {a step : Int} {r : Option Int} (ha : c → P a)
    (hr : r = some step → P step) : (if c then some a else r) = some step → P step := by
  intro h
  split at h
  · rename_i hc; cases h; exact ha hc
  · exact hr h

theorem tickstep_facts {n step : Int} (h : tickstep n = some step) :
    0 < step ∧ step ≤ 86400 ∧ 86400 % step = 0 ∧ (step < 3600 → 3600 % step = 0) ∧ (3600 ≤ step → step % 3600 = 0) ∧ n ≤ 20 * step ∧
      (3 * 3600 < n → n ≤ 12 * step) := by
  revert h
  unfold tickstep
  repeat (refine ite_fact (P := fun step => 0 < step ∧ step ≤ 86400 ∧ 86400 % step = 0 ∧ (step < 3600 → 3600 % step = 0) ∧ (3600 ≤ step → step % 3600 = 0) ∧
      n ≤ 20 * step ∧ (3 * 3600 < n → n ≤ 12 * step)) (by
        intro hc
        refine ⟨by decide, by decide, by decide, by decide, by decide, by omega, by omega⟩) ?_)
  intro h; cases h

theorem tickstep_none {n : Int} (h : tickstep n = none) : 12 * 86400 ≤ n := by
  have key : ∀ {c : Prop} [Decidable c] {a : Int} {r : Option Int}, (if c then some a else r) = none → ¬c ∧ r = none := by
    intro c _ a r h
    split at h
    · cases h
    · rename_i hc; exact ⟨hc, h⟩
  unfold tickstep at h
  have h := (key h).2
  have h := (key h).2
  have h := (key h).2
  have h := (key h).2
  have h := (key h).2
  have h := (key h).2
  have h := (key h).2
  have h := (key h).2
  have h := (key h).2
  have h := (key h).2
  have h := (key h).2
  have h := (key h).1
  omega

theorem seek_spec (p : Int → Bool) : ∀ (fuel : Nat) (t u : Int), seek p fuel t = some u →
    p u = true ∧ ∃ k : Nat, u = t + 3600 * k ∧ k < fuel ∧ ∀ j : Nat, j < k → p (t + 3600 * j) = false
  | 0, t, u, h => by simp [seek] at h
  | n + 1, t, u, h => by
    unfold seek at h
    split at h
    · rename_i hp
      cases h
      exact ⟨hp, 0, by omega, by omega, by omega⟩
    · rename_i hp
      obtain ⟨h1, k, h2, h3, h4⟩ := seek_spec p n (t + 3600) u h
      refine ⟨h1, k + 1, by omega, by omega, ?_⟩
      intro j hj
      cases j with
      | zero => simpa using hp
      | succ j =>
        have := h4 j (by omega)
        have e : t + 3600 * ((j + 1 : Nat) : Int) = t + 3600 + 3600 * (j : Int) := by omega
        rw [e]; exact this

theorem seek_some (p : Int → Bool) : ∀ (fuel : Nat) (t : Int) (k : Nat), k < fuel → p (t + 3600 * k) = true →
    ∃ u, seek p fuel t = some u ∧ u ≤ t + 3600 * k
  | 0, t, k, h, _ => by omega
  | n + 1, t, k, h, hp => by
    unfold seek
    split
    · exact ⟨t, rfl, by omega⟩
    · rename_i h0
      cases k with
      | zero => simp at hp; exact absurd hp h0
      | succ k =>
        have e : t + 3600 * ((k + 1 : Nat) : Int) = t + 3600 + 3600 * (k : Int) := by omega
        rw [e] at hp
        obtain ⟨u, h1, h2⟩ := seek_some p n (t + 3600) k (by omega) hp
        exact ⟨u, h1, by omega⟩

theorem skip_spec (start step : Int) (h : 0 < step) (lmin : Int) :
    start ≤ skip start step h lmin ∧ (∃ k : Nat, skip start step h lmin = lmin + step * k) ∧
      (lmin < start + step → skip start step h lmin < start + step) := by
  fun_induction skip start step h lmin with
  | case1 l hl ih =>
    obtain ⟨i1, ⟨k, hk⟩, i3⟩ := ih
    refine ⟨i1, ⟨k + 1, ?_⟩, fun _ => i3 (by omega)⟩
    rw [hk]
    have : step * ((k + 1 : Nat) : Int) = step * (k : Int) + step := by
      rw [Int.natCast_add, Int.mul_add]; omega
    omega
  | case2 l hl => exact ⟨by omega, ⟨0, by simp⟩, fun h => h⟩

/-- The times `ticks` goes through. -/
def times (stop step : Int) (h : 0 < step) (lmin : Int) : List Int :=
  if lmin < stop then lmin :: times stop step h (lmin + step) else []
termination_by (stop - lmin).toNat
decreasing_by omega

theorem ticks_eq (z : Zone) (rel : Bool) (stop step : Int) (h : 0 < step) (lmin : Int) :
    ticks z rel stop step h lmin = (times stop step h lmin).mapM (tick z rel step) := by
  fun_induction times stop step h lmin with
  | case1 l hl ih =>
    rw [ticks, if_pos hl, ih, List.mapM_cons]
    cases tick z rel step l with
    | none => simp
    | some a => cases List.mapM (tick z rel step) (times stop step h (l + step)) <;> simp [pure]
  | case2 l hl => rw [ticks, if_neg hl]; rfl

theorem times_spec (stop step : Int) (h : 0 < step) (lmin : Int) :
    ∃ n : Nat, times stop step h lmin = (List.range n).map (fun k : Nat => lmin + step * (k : Int)) ∧ stop ≤ lmin + step * n ∧
      (0 < n → lmin + step * ((n : Int) - 1) < stop) := by
  fun_induction times stop step h lmin with
  | case1 l hl ih =>
    obtain ⟨n, h1, h2, h3⟩ := ih
    have e : ∀ k : Nat, l + step * ((k + 1 : Nat) : Int) = l + step + step * (k : Int) := by
      intro k
      rw [Int.natCast_add, Int.mul_add]; omega
    refine ⟨n + 1, ?_, ?_, ?_⟩
    · rw [List.range_succ_eq_map, List.map_cons, h1, List.map_map]
      congr 1
      · simp
      apply List.map_congr_left
      intro k _
      show l + step + step * (k : Int) = l + step * ((k + 1 : Nat) : Int)
      rw [e]
    · rw [e]; exact h2
    · intro _
      cases n with
      | zero => simpa using hl
      | succ n =>
        have := h3 (by omega)
        have e2 : ((n + 1 + 1 : Nat) : Int) - 1 = ((n + 1 : Nat) : Int) := by omega
        rw [e2, e]
        have e3 : ((n + 1 : Nat) : Int) - 1 = (n : Int) := by omega
        rw [e3] at this
        exact this
  | case2 l hl => exact ⟨0, by simp, by simp; omega, by omega⟩

theorem mapM_some {α β : Type} {f : α → Option β} : ∀ {l : List α} {r : List β}, l.mapM f = some r →
    r.length = l.length ∧ ∀ (i : Nat) (h1 : i < l.length) (h2 : i < r.length), f l[i] = some r[i]
  | [], r, h => by
    simp only [List.mapM_nil, pure, Option.some.injEq] at h
    subst h
    exact ⟨rfl, by simp⟩
  | a :: l, r, h => by
    rw [List.mapM_cons] at h
    cases ha : f a with
    | none => rw [ha] at h; cases h
    | some b =>
      rw [ha] at h
      cases hl : List.mapM f l with
      | none => rw [hl] at h; cases h
      | some bs =>
        rw [hl] at h
        simp only [Option.bind_eq_bind, Option.bind_some, pure, Option.some.injEq] at h
        subst h
        have ih := mapM_some hl
        refine ⟨by simp [ih.1], ?_⟩
        intro i h1 h2
        cases i with
        | zero => simpa using ha
        | succ i => simpa using ih.2 i (by simpa using h1) (by simpa using h2)

theorem mapM_exists {α β : Type} {f : α → Option β} : ∀ {l : List α}, (∀ a ∈ l, ∃ b, f a = some b) → ∃ r, l.mapM f = some r
  | [], _ => ⟨[], rfl⟩
  | a :: l, h => by
    obtain ⟨b, hb⟩ := h a (by simp)
    obtain ⟨bs, hbs⟩ := mapM_exists (l := l) (fun x hx => h x (by simp [hx]))
    exact ⟨b :: bs, by rw [List.mapM_cons, hb, hbs]; rfl⟩

end Verif.Tics
