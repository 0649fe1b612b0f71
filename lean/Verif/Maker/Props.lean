import Verif.Maker.Model

/-!
# Properties of making statistics by name

C95.
-/

namespace Verif.Maker

open Verif

/-- What was last set for a name. -/
def setting (name : Name) : List Op → Option Made
  | [] => none
  | .make _ :: ops => setting name ops
  | .set n a :: ops => match setting name ops with
    | some b => some b
    | none => if n = name then some a else none

/-- A name under which the settings for `name` are looked for: the name itself, or what is left when it is cut before some group of dashes. -/
def Stem (p name : Name) : Prop := p = name ∨ (p ≠ [] ∧ p.getLast? ≠ some '-' ∧ ∃ rest, name = p ++ '-' :: rest)

/-- What is made: by the settings of the longest stem that has any, else by those of "default", else a simple statistic. -/
def Right (reg : Name → Option Made) (name : Name) (a : Made) : Prop :=
  (∃ p, Stem p name ∧ reg p = some a ∧ ∀ q, Stem q name → reg q ≠ none → q.length ≤ p.length) ∨
  ((∀ q, Stem q name → reg q = none) ∧ a = (reg default).getD .simple)

/-! ## Stems as positions -/

def Cut (s : Name) (k : Nat) : Prop := 0 < k ∧ s[k]? = some '-' ∧ s[k - 1]? ≠ some '-'

theorem stem_cut {p s : Name} : (p ≠ [] ∧ p.getLast? ≠ some '-' ∧ ∃ rest, s = p ++ '-' :: rest) ↔ ∃ k, Cut s k ∧ p = s.take k := by
  constructor
  · rintro ⟨h1, h2, rest, rfl⟩
    have hp : 0 < p.length := List.length_pos_iff.2 h1
    refine ⟨p.length, ⟨hp, ?_, ?_⟩, by simp⟩
    · simp
    · rw [List.getElem?_append_left (by omega), ← List.getLast?_eq_getElem?]; exact h2
  · rintro ⟨k, ⟨h1, h2, h3⟩, rfl⟩
    have hk : k < s.length := by
      rcases Nat.lt_or_ge k s.length with h | h
      · exact h
      · rw [List.getElem?_eq_none h] at h2; cases h2
    refine ⟨?_, ?_, s.drop (k + 1), ?_⟩
    · intro h
      have := congrArg List.length h
      rw [List.length_take, List.length_nil] at this
      omega
    · rw [List.getLast?_eq_getElem?, List.length_take, Nat.min_eq_left (by omega), List.getElem?_take_of_lt (by omega)]
      exact h3
    · have hs : s.drop k = '-' :: s.drop (k + 1) := by
        rw [List.drop_eq_getElem_cons hk]
        rw [List.getElem?_eq_getElem hk] at h2
        injection h2 with h2
        rw [h2]
      rw [← hs, List.take_append_drop]

theorem rfind_none {s : Name} : ∀ {n : Nat}, rfind s n = none → ∀ j, j < n → s[j]? ≠ some '-'
  | 0, _, j, hj => by omega
  | n + 1, h, j, hj => by
    rw [rfind] at h
    by_cases hc : s[n]? = some '-'
    · rw [if_pos hc] at h; cases h
    · rw [if_neg hc] at h
      rcases Nat.lt_or_ge j n with hlt | hge
      · exact rfind_none h j hlt
      · have : j = n := by omega
        rw [this]; exact hc

theorem rfind_some {s : Name} : ∀ {n i : Nat}, rfind s n = some i → i < n ∧ s[i]? = some '-' ∧ ∀ j, i < j → j < n → s[j]? ≠ some '-'
  | 0, i, h => by cases h
  | n + 1, i, h => by
    rw [rfind] at h
    by_cases hc : s[n]? = some '-'
    · rw [if_pos hc] at h; cases h
      exact ⟨by omega, hc, fun j h1 h2 => by omega⟩
    · rw [if_neg hc] at h
      obtain ⟨h1, h2, h3⟩ := rfind_some h
      refine ⟨by omega, h2, fun j h4 h5 => ?_⟩
      rcases Nat.lt_or_ge j n with hlt | hge
      · exact h3 j h4 hlt
      · have : j = n := by omega
        rw [this]; exact hc

theorem back_le (s : Name) : ∀ n, back s n ≤ n ∧ (∀ j, back s n ≤ j → j < n → s[j]? = some '-') ∧ (0 < back s n → s[back s n - 1]? ≠ some '-')
  | 0 => ⟨Nat.le_refl _, fun j _ h => by omega, fun h => by simp [back] at h⟩
  | n + 1 => by
    rw [back]
    by_cases hc : s[n]? = some '-'
    · rw [if_pos hc]
      obtain ⟨h1, h2, h3⟩ := back_le s n
      refine ⟨by omega, fun j h4 h5 => ?_, h3⟩
      rcases Nat.lt_or_ge j n with hlt | hge
      · exact h2 j h4 hlt
      · have : j = n := by omega
        rw [this]; exact hc
    · rw [if_neg hc]
      exact ⟨Nat.le_refl _, fun j h1 h2 => by omega, fun _ => hc⟩

/-- What the loop has to find. -/
def Found (m : Defs) (s : Name) : Option Name → Prop
  | some p => ∃ k, Cut s k ∧ p = s.take k ∧ m p ≠ none ∧ ∀ j, Cut s j → m (s.take j) ≠ none → j ≤ k
  | none => ∀ j, Cut s j → m (s.take j) = none

/-- The loop finds the longest proper stem that is in the table. -/
theorem search_ok (m : Defs) : ∀ (fuel : Nat) (s : Name), s.length < fuel → ∃ o, search m fuel s = .ok o ∧ Found m s o
  | 0, s, h => by omega
  | fuel + 1, s, h => by
    have hlen : ∀ j, Cut s j → j < s.length := fun j hj => by
      rcases Nat.lt_or_ge j s.length with h | h
      · exact h
      · have := hj.2.1; rw [List.getElem?_eq_none h] at this; cases this
    rw [search]
    cases hr : rfind s s.length with
    | none => exact ⟨none, rfl, fun j hj => absurd hj.2.1 (rfind_none hr j (hlen j hj))⟩
    | some i =>
      obtain ⟨r1, r2, r3⟩ := rfind_some hr
      simp only []
      rw [decide_eq_true r2, Res.require_true, Res.bind_ok]
      obtain ⟨b1, b2, b3⟩ := back_le s (i + 1)
      have b0 : back s (i + 1) ≤ i := by
        rcases Nat.lt_or_ge i (back s (i + 1)) with hx | hx
        · have : back s (i + 1) = i + 1 := by omega
          rw [this] at b3
          exact absurd r2 (b3 (by omega))
        · exact hx
      generalize hk : back s (i + 1) = k at *
      -- the cuts of `s` are `k`, if it is not 0, and those of the part before
      have c1 : ∀ j, Cut s j → j ≤ k := by
        intro j hj
        rcases Nat.lt_or_ge k j with hx | hx
        · have hji : j ≤ i := by
            rcases Nat.lt_or_ge i j with hy | hy
            · exact absurd hj.2.1 (r3 j hy (hlen j hj))
            · exact hy
          exact absurd (b2 (j - 1) (by omega) (by omega)) hj.2.2
        · exact hx
      have c2 : 0 < k → Cut s k := fun h0 => ⟨h0, b2 k (Nat.le_refl _) (by omega), b3 h0⟩
      have c3 : ∀ j, j < k → (Cut (s.take k) j ↔ Cut s j) := by
        intro j hj
        unfold Cut
        rw [List.getElem?_take_of_lt hj, List.getElem?_take_of_lt (by omega)]
      have c4 : ∀ j, Cut (s.take k) j → j < k := by
        intro j hj
        rcases Nat.lt_or_ge j k with h | h
        · exact h
        · have := hj.2.1
          rw [List.getElem?_eq_none (by rw [List.length_take]; omega)] at this
          cases this
      have c5 : ∀ j, j < k → (s.take k).take j = s.take j := fun j hj => by rw [List.take_take, Nat.min_eq_left (by omega)]
      have hsl : (s.take k).length = k := by rw [List.length_take]; omega
      obtain ⟨o, e, ho⟩ := search_ok m fuel (s.take k) (by omega)
      have tail : (0 < k → m (s.take k) = none) → Found m s o := by
        intro hn
        cases o with
        | none =>
          intro j hj
          rcases Nat.lt_or_ge j k with hlt | hge
          · have := ho j ((c3 j hlt).2 hj)
            rw [c5 j hlt] at this
            exact this
          · have hjk : j = k := Nat.le_antisymm (c1 j hj) hge
            rw [hjk]; exact hn (hjk ▸ hj.1)
        | some p =>
          obtain ⟨k', g1, g2, g3, g4⟩ := ho
          have hk' := c4 k' g1
          refine ⟨k', (c3 k' hk').1 g1, by rw [g2, c5 k' hk'], g3, fun j hj hm => ?_⟩
          rcases Nat.lt_or_ge j k with hlt | hge
          · exact g4 j ((c3 j hlt).2 hj) (by rw [c5 j hlt]; exact hm)
          · have hjk : j = k := Nat.le_antisymm (c1 j hj) hge
            rw [hjk] at hm
            exact absurd (hn (hjk ▸ hj.1)) hm
      rw [hsl]
      by_cases h0 : 0 < k
      · rw [if_pos h0]
        cases hm : m (s.take k) with
        | some d => exact ⟨some (s.take k), rfl, k, c2 h0, rfl, by rw [hm]; simp, fun j hj _ => c1 j hj⟩
        | none => exact ⟨o, e, tail fun _ => hm⟩
      · rw [if_neg h0]
        exact ⟨o, e, tail fun h => absurd h h0⟩

/-! ## Histories -/

theorem setting_snoc (name : Name) (ops : List Op) (o : Op) : setting name (ops ++ [o]) = match o with
    | .make _ => setting name ops
    | .set n a => if n = name then some a else setting name ops := by
  induction ops with
  | nil => cases o <;> rfl
  | cons o' ops ih =>
    rw [List.cons_append]
    cases o' with
    | make n' => rw [setting, ih]; cases o <;> rfl
    | set n' a' =>
      rw [setting, ih]
      cases o with
      | make n => rfl
      | set n a =>
        simp only []
        by_cases hc : n = name
        · rw [if_pos hc, if_pos hc]
        · rw [if_neg hc, if_neg hc]; rfl

theorem construct_assign (d : Def) (a : Made) : construct (assign d a) = .ok a := by cases a <;> rfl

/-- What the table has to do with the settings. -/
structure Agree (m : Defs) (reg : Name → Option Made) : Prop where
  of_some : ∀ n d, m n = some d → construct d = .ok ((reg n).getD .simple) ∧ (reg n = none → n = default)
  of_none : ∀ n, m n = none → reg n = none

theorem run_append (m : Defs) (a b : List Op) : run m (a ++ b) = run m a >>= fun m => run m b := by
  induction a generalizing m with
  | nil => rfl
  | cons o a ih =>
    rw [List.cons_append, run, run, Res.bind_assoc']
    congr 1; funext s'; exact ih s'

theorem agree_set {m : Defs} {ops : List Op} (h : Agree m fun n => setting n ops) (name : Name) (a : Made) : Agree (set m name a) fun n => setting n (ops ++ [.set name a]) := by
  constructor
  · intro n d hn
    rw [setting_snoc]
    unfold set put at hn
    by_cases hc : n = name
    · rw [if_pos hc] at hn
      cases hn
      simp only []
      rw [if_pos hc.symm]
      exact ⟨construct_assign _ _, fun h => by cases h⟩
    · rw [if_neg hc] at hn
      simp only []
      rw [if_neg fun h => hc h.symm]
      exact h.of_some n d hn
  · intro n hn
    rw [setting_snoc]
    unfold set put at hn
    by_cases hc : n = name
    · rw [if_pos hc] at hn; cases hn
    · rw [if_neg hc] at hn
      simp only []
      rw [if_neg fun h => hc h.symm]
      exact h.of_none n hn

theorem agree_fresh {m : Defs} {reg : Name → Option Made} (h : Agree m reg) (hm : m default = none) : Agree (put m default fresh) reg := by
  constructor
  · intro n d hn
    unfold put at hn
    by_cases hc : n = default
    · rw [if_pos hc] at hn
      cases hn
      rw [hc, h.of_none _ hm]
      exact ⟨rfl, fun _ => rfl⟩
    · rw [if_neg hc] at hn
      exact h.of_some n d hn
  · intro n hn
    unfold put at hn
    by_cases hc : n = default
    · rw [if_pos hc] at hn; cases hn
    · rw [if_neg hc] at hn
      exact h.of_none n hn

/-- "default" has no shorter stems. -/
theorem default_cut {s : Name} {k : Nat} (hs : s.take k = default) {j : Nat} (hj : Cut s j) : k ≤ j := by
  rcases Nat.lt_or_ge j k with h | h
  · have h1 := hj.2.1
    rw [← List.getElem?_take_of_lt h, hs] at h1
    have : ('-' : Char) ∈ default := List.mem_of_getElem? h1
    exact absurd this (by decide)
  · exact h

theorem make_right {m : Defs} {reg : Name → Option Made} (h : Agree m reg) (name : Name) : ∃ a m', make m name = .ok (a, m') ∧ Right reg name a ∧ Agree m' reg := by
  have hstem : ∀ q, Stem q name ↔ q = name ∨ ∃ k, Cut name k ∧ q = name.take k := fun q => by unfold Stem; rw [stem_cut]
  have hlen : ∀ j, Cut name j → j < name.length := fun j hj => by
    rcases Nat.lt_or_ge j name.length with h | h
    · exact h
    · have := hj.2.1; rw [List.getElem?_eq_none h] at this; cases this
  unfold make getDefault
  cases hn : m name with
  | some d =>
    obtain ⟨h1, h2⟩ := h.of_some name d hn
    simp only [Res.bind_ok]
    rw [h1]
    refine ⟨_, m, rfl, ?_, h⟩
    cases hr : reg name with
    | some a =>
      refine .inl ⟨name, .inl rfl, hr, fun q hq _ => ?_⟩
      rcases (hstem q).1 hq with rfl | ⟨k, hk, rfl⟩
      · exact Nat.le_refl _
      · rw [List.length_take]; omega
    | none =>
      have hd := h2 hr
      refine .inr ⟨fun q hq => ?_, by rw [hd] at hr; rw [hr]⟩
      rcases (hstem q).1 hq with rfl | ⟨k, hk, rfl⟩
      · exact hr
      · have := default_cut (s := name) (k := name.length) (by rw [List.take_length]; exact hd) hk
        have := hlen k hk
        omega
  | none =>
    simp only []
    obtain ⟨o, e, ho⟩ := search_ok m (name.length + 1) name (by omega)
    rw [e, Res.bind_ok]
    have hreg := h.of_none name hn
    cases o with
    | some p =>
      obtain ⟨k, c1, c2, c3, c4⟩ := ho
      simp only []
      cases hp : m p with
      | none => exact absurd hp c3
      | some d =>
        obtain ⟨h1, h2⟩ := h.of_some p d hp
        simp only [Res.bind_ok]
        rw [h1]
        refine ⟨_, m, rfl, ?_, h⟩
        cases hr : reg p with
        | some a =>
          refine .inl ⟨p, (hstem p).2 (.inr ⟨k, c1, c2⟩), hr, fun q hq hqr => ?_⟩
          rcases (hstem q).1 hq with rfl | ⟨j, hj, rfl⟩
          · exact absurd hreg hqr
          · have := c4 j hj (fun hx => hqr (h.of_none _ hx))
            rw [c2, List.length_take, List.length_take]
            omega
        | none =>
          have hd := h2 hr
          refine .inr ⟨fun q hq => ?_, by rw [hd] at hr; rw [hr]⟩
          rcases (hstem q).1 hq with rfl | ⟨j, hj, rfl⟩
          · exact hreg
          · have hkj := default_cut (c2.symm.trans hd) hj
            cases hm : m (name.take j) with
            | none => exact h.of_none _ hm
            | some d' =>
              have := c4 j hj (by rw [hm]; simp)
              have : j = k := by omega
              rw [this, ← c2]; exact hr
    | none =>
      have hall : ∀ q, Stem q name → reg q = none := fun q hq => by
        rcases (hstem q).1 hq with rfl | ⟨j, hj, rfl⟩
        · exact hreg
        · exact h.of_none _ (ho j hj)
      simp only []
      cases hd : m default with
      | some d =>
        obtain ⟨h1, h2⟩ := h.of_some default d hd
        simp only [Res.bind_ok]
        rw [h1]
        exact ⟨_, m, rfl, .inr ⟨hall, rfl⟩, h⟩
      | none =>
        simp only [Res.bind_ok]
        refine ⟨.simple, put m default fresh, rfl, .inr ⟨hall, ?_⟩, agree_fresh h hd⟩
        rw [h.of_none _ hd]
        rfl

theorem run_agree (ops : List Op) : ∃ m, run none' ops = .ok m ∧ Agree m fun n => setting n ops := by
  generalize hl : ops.length = n
  induction n generalizing ops with
  | zero =>
    have := List.length_eq_zero_iff.1 hl
    subst this
    exact ⟨none', rfl, ⟨fun n d h => (by have h : (none : Option Def) = some d := h; cases h), fun n _ => rfl⟩⟩
  | succ n ih =>
    have hne : ops ≠ [] := by intro hx; subst hx; cases hl
    obtain ⟨ops', o, rfl⟩ : ∃ ops' o, ops = ops' ++ [o] := ⟨ops.dropLast, ops.getLast hne, (List.dropLast_concat_getLast hne).symm⟩
    obtain ⟨m, e, h⟩ := ih ops' (by simp at hl; omega)
    rw [run_append, e, Res.bind_ok, run]
    cases o with
    | set name a =>
      exact ⟨_, rfl, agree_set h name a⟩
    | make name =>
      obtain ⟨a, m', e', -, h'⟩ := make_right h name
      refine ⟨m', by show (make m name >>= fun p => pure p.2) >>= _ = _; rw [e']; rfl, ?_⟩
      have : (fun n => setting n (ops' ++ [.make name])) = fun n => setting n ops' := by
        funext n
        rw [setting_snoc]
      rw [this]
      exact h'

/-- C95. After any calls, `make` ends and makes what the settings of the longest stem of the name say, else those of "default", else a simple statistic. -/
theorem maker_longest (ops : List Op) (name : Name) : ∃ m a m', run none' ops = .ok m ∧ make m name = .ok (a, m') ∧ Right (fun n => setting n ops) name a := by
  obtain ⟨m, e, h⟩ := run_agree ops
  obtain ⟨a, m', e', hr, -⟩ := make_right h name
  exact ⟨m, a, m', e, e', hr⟩

/-- There is only one right thing to make. -/
theorem right_unique (reg : Name → Option Made) (name : Name) (a b : Made) (ha : Right reg name a) (hb : Right reg name b) : a = b := by
  have hpre : ∀ p, Stem p name → p = name.take p.length := by
    rintro p (rfl | ⟨-, -, rest, rfl⟩)
    · rw [List.take_length]
    · simp
  rcases ha with ⟨p, p1, p2, p3⟩ | ⟨p1, p2⟩
  · rcases hb with ⟨q, q1, q2, q3⟩ | ⟨q1, q2⟩
    · have : p.length = q.length := Nat.le_antisymm (q3 p p1 (by rw [p2]; simp)) (p3 q q1 (by rw [q2]; simp))
      have hpq : p = q := by rw [hpre p p1, hpre q q1, this]
      rw [hpq, q2] at p2
      injection p2 with p2
      exact p2.symm
    · rw [q1 p p1] at p2; cases p2
  · rcases hb with ⟨q, q1, q2, q3⟩ | ⟨q1, q2⟩
    · rw [p1 q q1] at q2; cases q2
    · rw [p2, q2]

/-- C95. What is made depends only on the last setting of each name, not on what was made before. -/
theorem maker_history (ops ops' : List Op) (h : ∀ n, setting n ops = setting n ops') (name : Name) :
    (run none' ops >>= fun m => make m name >>= fun p => pure p.1) = (run none' ops' >>= fun m => make m name >>= fun p => pure p.1) := by
  obtain ⟨m, a, m1, e1, e2, h1⟩ := maker_longest ops name
  obtain ⟨n, b, n1, f1, f2, g1⟩ := maker_longest ops' name
  rw [e1, Res.bind_ok, e2, Res.bind_ok, f1, Res.bind_ok, f2]
  have : (fun n => setting n ops) = fun n => setting n ops' := funext h
  rw [← this] at g1
  rw [right_unique _ _ _ _ h1 g1]
  rfl

/-- A case of the theorems. -/
example : (run none' [.set "disk".toList (.sequence 7), .make "x".toList, .set "disk-a".toList .simple, .set "default".toList (.sequence 9)] >>= fun m =>
    make m "disk--b-c-".toList >>= fun p => make p.2 "disk-a-3".toList >>= fun q => make q.2 "-disk".toList >>= fun x => pure [p.1, q.1, x.1]) =
    .ok [.sequence 7, .simple, .sequence 9] := by decide +kernel

end Verif.Maker
