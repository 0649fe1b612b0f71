import Verif.Matrix.Store

/-! # C210: a matrix keeps its numbers -/

namespace Verif.Matrix.Store

/-! ## The specification: matrices are functions -/

/-- The matrices there are: rows, columns and numbers. -/
abbrev Abs (α : Type) := Nat → Option (Nat × Nat × (Nat → Nat → α))

/-- What a call does that is allowed; `none` for others. -/
def specStep {α : Type} (N : Nums α) (a : Abs α) (out : List α) : Op α → Option (Abs α × List α)
  | .make m r c => if a m = none ∧ r * c < 2 ^ 32 then some (fun k => if k = m then some (r, c, fun _ _ => N.zero) else a k, out) else none
  | .resize m r c => if a m ≠ none ∧ r * c < 2 ^ 32 then some (fun k => if k = m then some (r, c, fun _ _ => N.zero) else a k, out) else none
  | .set m i j v =>
    match a m with
    | some (r, c, f) => if i < r ∧ j < c then some (fun k => if k = m then some (r, c, fun x y => if x = i ∧ y = j then v else f x y) else a k, out) else none
    | none => none
  | .get m i j =>
    match a m with
    | some (r, c, f) => if i < r ∧ j < c then some (a, out ++ [f i j]) else none
    | none => none
  | .setRow m i args =>
    match a m with
    | some (r, c, f) =>
      if i < r ∧ args.length = c + 1 ∧ (args.getLast?.map N.isNan) = some true then
        some (fun k => if k = m then some (r, c, fun x y => if x = i then (args[y]?).getD N.zero else f x y) else a k, out)
      else none
    | none => none
  | .copy _ _ => none
  | .destroy m => if a m ≠ none then some (fun k => if k = m then none else a k, out) else none

def specRun {α : Type} (N : Nums α) : Abs α → List α → List (Op α) → Option (Abs α × List α)
  | a, out, [] => some (a, out)
  | a, out, o :: os =>
    match specStep N a out o with
    | some (a', out') => specRun N a' out' os
    | none => none

/-! ## Proof -/

/-- A matrix in memory. -/
def Holds {α : Type} (s : State α) (o : Obj) (x : Nat × Nat × (Nat → Nat → α)) : Prop :=
  o.nrows = x.1 ∧ o.ncols = x.2.1 ∧ x.1 * x.2.1 < 2 ^ 32 ∧ o.data < s.next ∧
    ∃ l, s.heap o.data = some l ∧ l.length = x.1 * x.2.1 ∧ ∀ i j, i < x.1 → j < x.2.1 → l[i * x.2.1 + j]? = some (x.2.2 i j)

structure Inv {α : Type} (s : State α) (a : Abs α) : Prop where
  both : ∀ m, s.objs m = none ↔ a m = none
  holds : ∀ m o x, s.objs m = some o → a m = some x → Holds s o x
  apart : ∀ m m' o o', s.objs m = some o → s.objs m' = some o' → o.data = o'.data → m = m'

theorem slot_lt {r c i j : Nat} (hi : i < r) (hj : j < c) : i * c + j < r * c := by
  have : (i + 1) * c ≤ r * c := Nat.mul_le_mul_right c hi
  rw [Nat.add_mul] at this
  omega

theorem slot_inj {c i j i' j' : Nat} (hj : j < c) (hj' : j' < c) (h : i * c + j = i' * c + j') : i = i' ∧ j = j' := by
  have h1 : (i * c + j) / c = i := by rw [Nat.mul_comm, Nat.mul_add_div (by omega), Nat.div_eq_of_lt hj]; omega
  have h2 : (i' * c + j') / c = i' := by rw [Nat.mul_comm, Nat.mul_add_div (by omega), Nat.div_eq_of_lt hj']; omega
  have : i = i' := by rw [← h1, ← h2, h]
  subst this
  exact ⟨rfl, by omega⟩

theorem index_eq {o : Obj} {r c i j : Nat} (hc : o.ncols = c) (hb : r * c < 2 ^ 32) (hi : i < r) (hj : j < c) : index o i j = i * c + j := by
  have := slot_lt hi hj
  unfold index u32
  rw [hc, Nat.mod_eq_of_lt (a := i * c) (by omega), Nat.mod_eq_of_lt (by omega)]

theorem get_ok {α : Type} {s : State α} {o : Obj} {r c : Nat} {f : Nat → Nat → α} (debug : Bool) (h : Holds s o (r, c, f)) {i j : Nat} (hi : i < r) (hj : j < c) :
    get debug s o i j = .ok (f i j) := by
  obtain ⟨h1, h2, h3, h4, l, h5, h6, h7⟩ := h
  simp only at h1 h2 h3 h6 h7
  unfold get
  rw [if_neg (by rw [h1, h2]; exact fun hn => hn.2 ⟨hi, hj⟩), h5]
  simp only [index_eq h2 h3 hi hj, h7 i j hi hj]

theorem set_ok {α : Type} {s : State α} {o : Obj} {r c : Nat} {f : Nat → Nat → α} (debug : Bool) (h : Holds s o (r, c, f)) {i j : Nat} (v : α) (hi : i < r) (hj : j < c) :
    ∃ s', set debug s o i j v = .ok s' ∧ Holds s' o (r, c, fun x y => if x = i ∧ y = j then v else f x y) ∧ s'.objs = s.objs ∧ s'.next = s.next ∧ ∀ k, k ≠ o.data → s'.heap k = s.heap k := by
  obtain ⟨h1, h2, h3, h4, l, h5, h6, h7⟩ := h
  simp only at h1 h2 h3 h6 h7
  have hlt := slot_lt hi hj
  refine ⟨{ s with heap := put s.heap o.data (some (l.set (i * c + j) v)) }, ?_, ⟨h1, h2, h3, h4, l.set (i * c + j) v, ?_, ?_, ?_⟩, rfl, rfl, ?_⟩
  · unfold set
    rw [if_neg (by rw [h1, h2]; exact fun hn => hn.2 ⟨hi, hj⟩), h5]
    simp only [index_eq h2 h3 hi hj]
    rw [if_pos (by rw [h6]; exact hlt)]
  · simp [put]
  · simp [h6]
  · intro x y hx hy
    simp only at hx hy ⊢
    rw [List.getElem?_set]
    split
    · rename_i e
      obtain ⟨rfl, rfl⟩ := slot_inj hj hy e
      simp [h6, hlt]
    · rename_i e
      rw [if_neg (by rintro ⟨rfl, rfl⟩; exact e rfl)]
      exact h7 x y hx hy
  · intro k hk; simp [put, hk]

/-- The rows already set are those below `j`. -/
theorem setRow_ok {α : Type} (N : Nums α) (debug : Bool) {o : Obj} {r c i : Nat} (hi : i < r) : ∀ (n j : Nat) (args : List α) (s : State α) (f : Nat → Nat → α),
    Holds s o (r, c, f) → j + n = c → args.length = n + 1 → args.getLast?.map N.isNan = some true →
    ∃ s', setRow N debug s o i n j args = .ok s' ∧ Holds s' o (r, c, fun x y => if x = i ∧ j ≤ y then (args[y - j]?).getD N.zero else f x y) ∧ s'.objs = s.objs ∧ s'.next = s.next ∧
      ∀ k, k ≠ o.data → s'.heap k = s.heap k := by
  intro n
  induction n with
  | zero =>
    intro j args s f h hj hl hn
    refine ⟨s, ?_, ?_, rfl, rfl, fun _ _ => rfl⟩
    · match args, hl with
      | [v], _ =>
        simp at hn
        unfold setRow
        cases debug <;> simp [hn]
    · obtain ⟨h1, h2, h3, h4, l, h5, h6, h7⟩ := h
      refine ⟨h1, h2, h3, h4, l, h5, h6, fun x y hx hy => ?_⟩
      simp only at hx hy h7 ⊢
      rw [if_neg (by omega)]
      exact h7 x y hx hy
  | succ n ih =>
    intro j args s f h hj hl hn
    match args, hl with
    | v :: args, hl =>
      obtain ⟨s1, hs, h1, ho, hx, hh⟩ := set_ok debug h v hi (show j < c by omega)
      have hl' : args.length = n + 1 := by simpa using hl
      obtain ⟨s2, hs2, h2, ho2, hx2, hh2⟩ := ih (j + 1) args s1 _ h1 (by omega) hl' (by
        match args, hl' with
        | w :: ws, _ => simpa using hn)
      refine ⟨s2, ?_, ?_, ho2.trans ho, hx2.trans hx, fun k hk => (hh2 k hk).trans (hh k hk)⟩
      · unfold setRow; rw [hs]; exact hs2
      · obtain ⟨g1, g2, g3, g4, l, g5, g6, g7⟩ := h2
        refine ⟨g1, g2, g3, g4, l, g5, g6, fun x y hx hy => ?_⟩
        rw [g7 x y hx hy]
        simp only
        by_cases hxi : x = i
        · subst hxi
          by_cases hy1 : y = j
          · subst hy1; simp [show ¬ y + 1 ≤ y by omega]
          · by_cases hy2 : j + 1 ≤ y
            · have e : y - j = (y - (j + 1)) + 1 := by omega
              simp [hy2, show j ≤ y by omega, e]
            · simp [hy1, show ¬ j ≤ y by omega, hy2]
        · simp [hxi]

theorem inv_change {α : Type} {s s' : State α} {a : Abs α} (h : Inv s a) {m : Nat} {o : Obj} {x : Nat × Nat × (Nat → Nat → α)} (hm : s.objs m = some o)
    (hx : Holds s' o x) (ho : s'.objs = s.objs) (hn : s'.next = s.next) (hh : ∀ k, k ≠ o.data → s'.heap k = s.heap k) :
    Inv s' (fun k => if k = m then some x else a k) := by
  refine ⟨fun k => ?_, fun k p q hk hq => ?_, fun k k' p p' hk hk' e => h.apart k k' p p' (ho ▸ hk) (ho ▸ hk') e⟩
  · rw [ho]
    by_cases e : k = m
    · subst e; simp [hm]
    · simp only [if_neg e]; exact h.both k
  · rw [ho] at hk
    by_cases e : k = m
    · subst e
      rw [hm] at hk
      obtain rfl := Option.some.inj hk
      simp only [if_true] at hq
      obtain rfl := Option.some.inj hq
      exact hx
    · simp only [if_neg e] at hq
      obtain ⟨h1, h2, h3, h4, l, h5, h6, h7⟩ := h.holds k p q hk hq
      refine ⟨h1, h2, h3, by omega, l, ?_, h6, h7⟩
      rw [hh p.data (fun e' => e (h.apart k m p o hk hm e'))]
      exact h5

theorem inv_alloc {α : Type} {N : Nums α} {s : State α} {a : Abs α} (h : Inv s a) {m r c : Nat} (hb : r * c < 2 ^ 32) :
    Inv { (alloc N s r c).1 with objs := put s.objs m (some (alloc N s r c).2) } (fun k => if k = m then some (r, c, fun _ _ => N.zero) else a k) := by
  refine ⟨fun k => ?_, fun k p q hk hq => ?_, fun k k' p p' hk hk' e => ?_⟩
  · by_cases e : k = m
    · simp [put, e]
    · simp only [put, if_neg e]; exact h.both k
  · by_cases e : k = m
    · simp only [put, if_pos e] at hk
      simp only [if_pos e] at hq
      obtain rfl := Option.some.inj hk
      obtain rfl := Option.some.inj hq
      refine ⟨rfl, rfl, hb, Nat.lt_succ_self _, List.replicate (r * c) N.zero, by simp [alloc, put, u32, Nat.mod_eq_of_lt hb], by simp, fun i j hi hj => ?_⟩
      simp only at hi hj ⊢
      rw [List.getElem?_replicate, if_pos (slot_lt hi hj)]
    · simp only [put, if_neg e] at hk
      simp only [if_neg e] at hq
      obtain ⟨h1, h2, h3, h4, l, h5, h6, h7⟩ := h.holds k p q hk hq
      refine ⟨h1, h2, h3, Nat.lt_succ_of_lt h4, l, ?_, h6, h7⟩
      simp only [alloc, put, if_neg (Nat.ne_of_lt h4)]
      exact h5
  · have old : ∀ k p, s.objs k = some p → p.data < s.next := by
      intro k p hk
      cases ha : a k with
      | none => rw [(h.both k).2 ha] at hk; cases hk
      | some x => exact (h.holds k p x hk ha).2.2.2.1
    by_cases e1 : k = m <;> by_cases e2 : k' = m
    · rw [e1, e2]
    · simp only [put, if_pos e1] at hk
      simp only [put, if_neg e2] at hk'
      obtain rfl := Option.some.inj hk
      have := old k' p' hk'
      simp only [alloc] at e
      omega
    · simp only [put, if_neg e1] at hk
      simp only [put, if_pos e2] at hk'
      obtain rfl := Option.some.inj hk'
      have := old k p hk
      simp only [alloc] at e
      omega
    · simp only [put, if_neg e1] at hk
      simp only [put, if_neg e2] at hk'
      exact h.apart k k' p p' hk hk' e

theorem inv_step {α : Type} {N : Nums α} (debug : Bool) {s : State α} {a a' : Abs α} {out out' : List α} (h : Inv s a) (op : Op α) (hs : specStep N a out op = some (a', out')) :
    ∃ s', step N debug s out op = .ok (s', out') ∧ Inv s' a' := by
  have obj : ∀ {m x}, a m = some x → ∃ o, s.objs m = some o := by
    intro m x hm
    cases ho : s.objs m with
    | none => rw [(h.both m).1 ho] at hm; cases hm
    | some o => exact ⟨o, rfl⟩
  cases op with
  | make m r c =>
    simp only [specStep] at hs
    split at hs
    · rename_i hc
      cases hs
      exact ⟨_, by simp only [step, (h.both m).2 hc.1], inv_alloc h hc.2⟩
    · cases hs
  | resize m r c =>
    simp only [specStep] at hs
    split at hs
    · rename_i hc
      cases hs
      obtain ⟨x, hx⟩ := Option.ne_none_iff_exists'.1 hc.1
      obtain ⟨o, ho⟩ := obj hx
      exact ⟨_, by simp only [step, ho], inv_alloc h hc.2⟩
    · cases hs
  | set m i j v =>
    simp only [specStep] at hs
    split at hs
    · rename_i r c f hm
      split at hs
      · rename_i hc
        cases hs
        obtain ⟨o, ho⟩ := obj hm
        obtain ⟨s', h1, h2, h3, h4, h5⟩ := set_ok debug (h.holds m o _ ho hm) v hc.1 hc.2
        exact ⟨s', by simp only [step, ho, h1], inv_change h ho h2 h3 h4 h5⟩
      · cases hs
    · cases hs
  | get m i j =>
    simp only [specStep] at hs
    split at hs
    · rename_i r c f hm
      split at hs
      · rename_i hc
        cases hs
        obtain ⟨o, ho⟩ := obj hm
        exact ⟨s, by simp only [step, ho, get_ok debug (h.holds m o _ ho hm) hc.1 hc.2], h⟩
      · cases hs
    · cases hs
  | setRow m i args =>
    simp only [specStep] at hs
    split at hs
    · rename_i r c f hm
      split at hs
      · rename_i hc
        cases hs
        obtain ⟨o, ho⟩ := obj hm
        have hh := h.holds m o _ ho hm
        obtain ⟨s', h1, h2, h3, h4, h5⟩ := setRow_ok N debug hc.1 c 0 args s f hh (by omega) hc.2.1 hc.2.2
        refine ⟨s', by simp only [step, ho, hh.2.1, h1], ?_⟩
        have := inv_change h ho h2 h3 h4 h5
        simpa using this
      · cases hs
    · cases hs
  | copy m m' => simp [specStep] at hs
  | destroy m =>
    simp only [specStep] at hs
    split at hs
    · rename_i hc
      cases hs
      obtain ⟨x, hx⟩ := Option.ne_none_iff_exists'.1 hc
      obtain ⟨o, ho⟩ := obj hx
      obtain ⟨_, _, _, _, l, hl, _⟩ := h.holds m o x ho hx
      refine ⟨{ s with heap := put s.heap o.data none, objs := put s.objs m none }, by simp only [step, ho, hl], fun k => ?_, fun k p q hk hq => ?_, fun k k' p p' hk hk' e => ?_⟩
      · by_cases e : k = m
        · simp [put, e]
        · simp only [put, if_neg e]; exact h.both k
      · by_cases e : k = m
        · simp [e] at hq
        · simp only [put, if_neg e] at hk
          simp only [if_neg e] at hq
          obtain ⟨h1, h2, h3, h4, l, h5, h6, h7⟩ := h.holds k p q hk hq
          refine ⟨h1, h2, h3, h4, l, ?_, h6, h7⟩
          simp only [put, if_neg (fun e' => e (h.apart k m p o hk ho e'))]
          exact h5
      · by_cases e1 : k = m
        · simp [put, e1] at hk
        · by_cases e2 : k' = m
          · simp [put, e2] at hk'
          · simp only [put, if_neg e1] at hk
            simp only [put, if_neg e2] at hk'
            exact h.apart k k' p p' hk hk' e
    · cases hs

theorem inv_run {α : Type} {N : Nums α} (debug : Bool) (ops : List (Op α)) : ∀ (s : State α) (a a' : Abs α) (out out' : List α), Inv s a → specRun N a out ops = some (a', out') →
    ∃ s', run N debug s out ops = .ok (s', out') ∧ Inv s' a' := by
  induction ops with
  | nil => intro s a a' out out' h hs; cases hs; exact ⟨s, rfl, h⟩
  | cons o os ih =>
    intro s a a' out out' h hs
    unfold specRun at hs
    split at hs
    · rename_i a1 out1 h1
      obtain ⟨s1, hs1, hi⟩ := inv_step debug h o h1
      obtain ⟨s2, hs2, hi2⟩ := ih s1 a1 a' out1 out' hi hs
      refine ⟨s2, ?_, hi2⟩
      unfold run
      rw [hs1]
      exact hs2
    · cases hs

theorem inv_start {α : Type} : Inv (start : State α) (fun _ => none) :=
  ⟨fun _ => by simp [start], fun _ _ _ h => by simp [start] at h, fun _ _ _ _ h => by simp [start] at h⟩

/-- C210: whatever is done with any number of matrices of less than 2^32 numbers, within their bounds, rows being ended by the NaN and nothing copied: with and without the checks `get` returns what was last set there, zero at first and after `resize`, and nothing undefined happens. -/
theorem store_partial {α : Type} (N : Nums α) (debug : Bool) (ops : List (Op α)) (a : Abs α) (out : List α) (h : specRun N (fun _ => none) [] ops = some (a, out)) :
    ∃ s, run N debug start [] ops = .ok (s, out) := by
  obtain ⟨s, hs, _⟩ := inv_run debug ops _ _ _ _ _ inv_start h
  exact ⟨s, hs⟩

/-- Integers, with -1 for the NaN. -/
def ints : Nums Int := ⟨0, fun v => v == -1⟩

example : (specRun ints (fun _ => none) [] [.make 0 2 3, .make 1 1 1, .set 0 1 2 7, .setRow 0 0 [4, 5, 6, -1], .get 0 1 2, .get 0 0 1, .get 1 0 0, .resize 0 3 3, .get 0 1 2, .destroy 1, .destroy 0]).map (·.2) =
    some [7, 5, 0, 0] := by decide

theorem run_append {α : Type} {N : Nums α} {debug : Bool} (ops ops' : List (Op α)) : ∀ {s s' : State α} {out out' : List α}, run N debug s out ops = .ok (s', out') → run N debug s out (ops ++ ops') = run N debug s' out' ops' := by
  induction ops with
  | nil => intro s s' out out' h; cases h; rfl
  | cons o os ih =>
    intro s s' out out' h
    simp only [run, List.cons_append] at h ⊢
    split at h
    · exact ih h
    · cases h
    · cases h

/-- C210: with the checks, reading or writing outside of the bounds stops the program. -/
theorem bounds_checked {α : Type} (N : Nums α) (ops : List (Op α)) (a : Abs α) (out : List α) (h : specRun N (fun _ => none) [] ops = some (a, out))
    (m r c : Nat) (f : Nat → Nat → α) (hm : a m = some (r, c, f)) (i j : Nat) (hij : ¬ (i < r ∧ j < c)) (v : α) :
    run N true start [] (ops ++ [.get m i j]) = .abort ∧ run N true start [] (ops ++ [.set m i j v]) = .abort := by
  obtain ⟨s, hs, hi⟩ := inv_run true ops _ _ _ _ _ inv_start h
  cases ho : s.objs m with
  | none => rw [(hi.both m).1 ho] at hm; cases hm
  | some o =>
    obtain ⟨h1, h2, _⟩ := hi.holds m o _ ho hm
    rw [run_append _ _ hs, run_append _ _ hs]
    have : ¬ (i < o.nrows ∧ j < o.ncols) := by rw [h1, h2]; exact hij
    simp [run, step, ho, get, set, this]

/-- C210: no memory is lost, as long as no matrix is resized: when all are gone, so is every block. -/
theorem freed_partial {α : Type} (N : Nums α) (debug : Bool) (ops : List (Op α)) (a : Abs α) (out : List α) (h : specRun N (fun _ => none) [] ops = some (a, out))
    (hr : ∀ o ∈ ops, ∀ m r c, o ≠ .resize m r c) (hd : ∀ m, a m = none) : ∃ s, run N debug start [] ops = .ok (s, out) ∧ ∀ k, s.heap k = none := by
  have key : ∀ (ops : List (Op α)) (s : State α) (a : Abs α) (out : List α) (a' : Abs α) (out' : List α), Inv s a → specRun N a out ops = some (a', out') →
      (∀ o ∈ ops, ∀ m r c, o ≠ .resize m r c) → (∀ k, s.heap k ≠ none → ∃ m o, s.objs m = some o ∧ o.data = k) →
      ∃ s', run N debug s out ops = .ok (s', out') ∧ Inv s' a' ∧ ∀ k, s'.heap k ≠ none → ∃ m o, s'.objs m = some o ∧ o.data = k := by
    intro ops
    induction ops with
    | nil => intro s a out a' out' hi h _ hk; cases h; exact ⟨s, rfl, hi, hk⟩
    | cons op ops ih =>
      intro s a out a' out' hi h hr hk
      unfold specRun at h
      split at h
      · rename_i a1 out1 h1
        obtain ⟨s1, hs1, hi1⟩ := inv_step debug hi op h1
        have hk1 : ∀ k, s1.heap k ≠ none → ∃ m o, s1.objs m = some o ∧ o.data = k := by
          have obj : ∀ {m x}, a m = some x → ∃ o, s.objs m = some o := by
            intro m x hm
            cases ho : s.objs m with
            | none => rw [(hi.both m).1 ho] at hm; cases hm
            | some o => exact ⟨o, rfl⟩
          cases op with
          | make m r c =>
            simp only [specStep] at h1
            split at h1
            · rename_i hc
              simp only [step, (hi.both m).2 hc.1] at hs1
              cases hs1
              intro k hkk
              by_cases e : k = s.next
              · exact ⟨m, (alloc N s r c).2, by simp [put], e.symm⟩
              · simp only [alloc, put, if_neg e] at hkk
                obtain ⟨m', o', ho', e'⟩ := hk k hkk
                have : m' ≠ m := by rintro rfl; rw [(hi.both m').2 hc.1] at ho'; cases ho'
                exact ⟨m', o', by simp only [put, if_neg this]; exact ho', e'⟩
            · cases h1
          | resize m r c => exact absurd rfl (hr _ List.mem_cons_self m r c)
          | set m i j v =>
            simp only [specStep] at h1
            split at h1
            · rename_i r c f hm
              split at h1
              · rename_i hc
                obtain ⟨o, ho⟩ := obj hm
                obtain ⟨s', g1, g2, g3, g4, g5⟩ := set_ok debug (hi.holds m o _ ho hm) v hc.1 hc.2
                simp only [step, ho, g1] at hs1
                cases hs1
                intro k hkk
                rw [g3]
                by_cases e : k = o.data
                · exact ⟨m, o, ho, e.symm⟩
                · rw [g5 k e] at hkk; exact hk k hkk
              · cases h1
            · cases h1
          | get m i j =>
            simp only [specStep] at h1
            split at h1
            · rename_i r c f hm
              split at h1
              · rename_i hc
                obtain ⟨o, ho⟩ := obj hm
                simp only [step, ho, get_ok debug (hi.holds m o _ ho hm) hc.1 hc.2] at hs1
                cases hs1
                exact hk
              · cases h1
            · cases h1
          | setRow m i args =>
            simp only [specStep] at h1
            split at h1
            · rename_i r c f hm
              split at h1
              · rename_i hc
                obtain ⟨o, ho⟩ := obj hm
                have hh := hi.holds m o _ ho hm
                obtain ⟨s', g1, g2, g3, g4, g5⟩ := setRow_ok N debug hc.1 c 0 args s f hh (by omega) hc.2.1 hc.2.2
                simp only [step, ho, hh.2.1, g1] at hs1
                cases hs1
                intro k hkk
                rw [g3]
                by_cases e : k = o.data
                · exact ⟨m, o, ho, e.symm⟩
                · rw [g5 k e] at hkk; exact hk k hkk
              · cases h1
            · cases h1
          | copy m m' => simp [specStep] at h1
          | destroy m =>
            simp only [specStep] at h1
            split at h1
            · rename_i hc
              obtain ⟨x, hx⟩ := Option.ne_none_iff_exists'.1 hc
              obtain ⟨o, ho⟩ := obj hx
              obtain ⟨_, _, _, _, l, hl, _⟩ := hi.holds m o x ho hx
              simp only [step, ho, hl] at hs1
              cases hs1
              intro k hkk
              by_cases e : k = o.data
              · simp [put, e] at hkk
              · simp only [put, if_neg e] at hkk
                obtain ⟨m', o', ho', e'⟩ := hk k hkk
                have : m' ≠ m := by rintro rfl; rw [ho] at ho'; obtain rfl := Option.some.inj ho'; exact e e'.symm
                exact ⟨m', o', by simp only [put, if_neg this]; exact ho', e'⟩
            · cases h1
        obtain ⟨s2, hs2, hi2, hk2⟩ := ih s1 a1 out1 a' out' hi1 h (fun o ho => hr o (List.mem_cons_of_mem _ ho)) hk1
        refine ⟨s2, ?_, hi2, hk2⟩
        unfold run
        rw [hs1]
        exact hs2
      · cases h
  obtain ⟨s, hs, hi, hk⟩ := key ops start _ _ _ _ inv_start h hr (fun k hk => absurd rfl hk)
  refine ⟨s, hs, fun k => ?_⟩
  by_cases e : s.heap k = none
  · exact e
  · obtain ⟨m, o, ho, _⟩ := hk k e
    rw [(hi.both m).2 (hd m)] at ho
    cases ho

/-- C210, false of the code: `resize` loses the memory of before. -/
theorem resize_leak_false : ∃ s, run ints true start [] [.make 0 1 1, .resize 0 1 1, .destroy 0] = .ok (s, []) ∧ (∀ m, s.objs m = none) ∧ s.heap 0 = some [0] :=
  ⟨_, rfl, fun m => by by_cases e : m = 0 <;> simp [put, start, e], rfl⟩

/-- C210, false of the code: a copy shares the numbers, so that writing to it changes the original, and destroying both is undefined. -/
theorem copy_false (debug : Bool) : (run ints debug start [] [.make 0 1 1, .copy 0 1, .set 1 0 0 5, .get 0 0 0]).map (·.2) = .ok [5] ∧
    run ints debug start [] [.make 0 1 1, .copy 0 1, .destroy 0, .destroy 1] = .ub := by
  cases debug <;> exact ⟨rfl, rfl⟩

/-- C210, false of the code: the size is taken modulo 2^32, so that numbers within the bounds are outside of the memory. -/
theorem overflow_false : ∃ i j, i < 65536 ∧ j < 65537 ∧ ∀ debug, run ints debug start [] [.make 0 65536 65537, .get 0 i j] = .ub := by
  refine ⟨1, 65536, by omega, by omega, fun debug => ?_⟩
  have h : u32 (65536 * 65537) = 65536 := by decide
  have h' : u32 (u32 (1 * 65537) + 65536) = 131073 := by decide
  have hl : (List.replicate 65536 (0 : Int))[131073]? = none := by rw [List.getElem?_eq_none_iff, List.length_replicate]; omega
  simp only [run, step, start, alloc, get, put, if_true, h]
  rw [if_neg (by omega)]
  simp only [index, h']
  have e : ints.zero = 0 := rfl
  rw [e, hl]

/-- C210, false of the code: without the checks a column that is too large is the next row. -/
theorem alias_false : (run ints false start [] [.make 0 2 2, .set 0 1 0 9, .get 0 0 2]).map (·.2) = .ok [9] := rfl

end Verif.Matrix.Store
