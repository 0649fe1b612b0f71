import Verif.Deptool.Deps

/-!
# deptool: collection of dependencies, order of the walk, names
-/

namespace Verif.Deptool.Deps

/-! ## Specification -/

/-- The projects (with build types) that a project needs, directly or not. -/
inductive Reach (vcdeps : Text → List Text) (root : Text × Text) : Text × Text → Prop
  | refl : Reach vcdeps root root
  | step (x : Text × Text) (d : Text) (h : Reach vcdeps root x) (hd : d ∈ vcdeps x.1) : Reach vcdeps root (parseDependency d)

/-- No two of the projects needed have the same build directory. -/
def NoCollision (dir : Text) (vcdeps : Text → List Text) (root : Text × Text) : Prop :=
  ∀ x y, Reach vcdeps root x → Reach vcdeps root y → projectBuildPath dir x.1 x.2 = projectBuildPath dir y.1 y.2 → x = y

/-- Reachable along dependencies. -/
inductive Needs {α : Type} (deps : α → List α) (root : α) : α → Prop
  | refl : Needs deps root root
  | step (x d : α) (h : Needs deps root x) (hd : d ∈ deps x) : Needs deps root d

/-- The log (newest first) has every call once, the second one of a project after its first, and if `inOrder` after the second ones of its dependencies. -/
def Ordered {α : Type} (deps : α → List α) (inOrder : Prop) : List (Ev α) → Prop
  | [] => True
  | .pre x :: log => .pre x ∉ log ∧ .post x ∉ log ∧ Ordered deps inOrder log
  | .post x :: log => .post x ∉ log ∧ .pre x ∈ log ∧ (∀ d ∈ deps x, .pre d ∈ log) ∧ (inOrder → ∀ d ∈ deps x, .post d ∈ log) ∧ Ordered deps inOrder log

/-! ## Collection -/

section
variable {dir : Text} {vcdeps : Text → List Text} {root : Text × Text}

structure CInv (dir : Text) (vcdeps : Text → List Text) (root : Text × Text) (queue : List (Text × Text)) (table : List Info) : Prop where
  reach : ∀ x ∈ queue, Reach vcdeps root x
  entry : ∀ i ∈ table, ∃ type, Reach vcdeps root (i.src, type) ∧ i.path = projectBuildPath dir i.src type
  deps : ∀ i ∈ table, i.deps = (vcdeps i.src).map fun d => projectBuildPath dir (parseDependency d).1 (parseDependency d).2
  nodup : (table.map (·.path)).Nodup
  closed : ∀ i ∈ table, ∀ d ∈ vcdeps i.src, parseDependency d ∈ queue ∨ ∃ j ∈ table, j.path = projectBuildPath dir (parseDependency d).1 (parseDependency d).2
  root : root ∈ queue ∨ ∃ j ∈ table, j.path = projectBuildPath dir root.1 root.2

theorem collect_inv (fuel : Nat) (queue : List (Text × Text)) (table t : List Info) (h : collect dir vcdeps fuel queue table = some t) (hi : CInv dir vcdeps root queue table) :
    CInv dir vcdeps root [] t := by
  induction fuel generalizing queue table with
  | zero =>
    cases queue with
    | nil => simp only [collect, Option.some.injEq] at h; subst h; exact hi
    | cons x q => simp [collect] at h
  | succ fuel ih =>
    cases queue with
    | nil => simp only [collect, Option.some.injEq] at h; subst h; exact hi
    | cons x queue =>
      obtain ⟨src, type⟩ := x
      unfold collect at h
      split at h
      · rename_i ha
        simp only [List.any_eq_true, decide_eq_true_eq] at ha
        obtain ⟨j, hj, hjp⟩ := ha
        refine ih _ _ h ⟨fun x hx => hi.reach x (List.mem_cons_of_mem _ hx), hi.entry, hi.deps, hi.nodup, ?_, ?_⟩
        · intro i him d hd
          rcases hi.closed i him d hd with h1 | h1
          · rcases List.mem_cons.1 h1 with e | h1
            · right; rw [e]; exact ⟨j, hj, hjp⟩
            · exact Or.inl h1
          · exact Or.inr h1
        · rcases hi.root with h1 | h1
          · rcases List.mem_cons.1 h1 with e | h1
            · right; rw [e]; exact ⟨j, hj, hjp⟩
            · exact Or.inl h1
          · exact Or.inr h1
      · rename_i ha
        have hr := hi.reach (src, type) List.mem_cons_self
        refine ih _ _ h ⟨?_, ?_, ?_, ?_, ?_, ?_⟩
        · intro x hx
          rcases List.mem_append.1 hx with hx | hx
          · exact hi.reach x (List.mem_cons_of_mem _ hx)
          · obtain ⟨d, hd, rfl⟩ := List.mem_map.1 hx
            exact .step _ d hr hd
        · intro i hm
          rcases List.mem_cons.1 hm with rfl | hm
          · exact ⟨type, hr, rfl⟩
          · exact hi.entry i hm
        · intro i hm
          rcases List.mem_cons.1 hm with rfl | hm
          · rfl
          · exact hi.deps i hm
        · rw [List.map_cons, List.nodup_cons]
          refine ⟨?_, hi.nodup⟩
          intro hm
          obtain ⟨j, hj, e⟩ := List.mem_map.1 hm
          apply ha
          simp only [List.any_eq_true, decide_eq_true_eq]
          exact ⟨j, hj, e⟩
        · intro i hm d hd
          rcases List.mem_cons.1 hm with rfl | hm
          · left
            exact List.mem_append_right _ (List.mem_map.2 ⟨d, hd, rfl⟩)
          · rcases hi.closed i hm d hd with h1 | ⟨j, hj, e⟩
            · rcases List.mem_cons.1 h1 with e | h1
              · right; rw [e]; exact ⟨_, List.mem_cons_self, rfl⟩
              · exact Or.inl (List.mem_append_left _ h1)
            · exact Or.inr ⟨j, List.mem_cons_of_mem _ hj, e⟩
        · rcases hi.root with h1 | ⟨j, hj, e⟩
          · rcases List.mem_cons.1 h1 with e | h1
            · right; rw [e]; exact ⟨_, List.mem_cons_self, rfl⟩
            · exact Or.inl (List.mem_append_left _ h1)
          · exact Or.inr ⟨j, List.mem_cons_of_mem _ hj, e⟩

/-- C165: the table has one entry for a build directory, the directory of the root, with every entry the directories it needs; and nothing that the root does not need. -/
theorem collect_closed (dir : Text) (vcdeps : Text → List Text) (root : Text × Text) (fuel : Nat) (t : List Info) (h : collect dir vcdeps fuel [root] [] = some t) :
    (t.map (·.path)).Nodup ∧ (∃ i ∈ t, i.path = projectBuildPath dir root.1 root.2) ∧ (∀ i ∈ t, ∀ d ∈ i.deps, ∃ j ∈ t, j.path = d) ∧
      ∀ i ∈ t, ∃ type, Reach vcdeps root (i.src, type) ∧ i.path = projectBuildPath dir i.src type := by
  have hi := collect_inv fuel [root] [] t h (root := root) ⟨fun x hx => by (rw [List.mem_singleton.1 hx]; exact .refl), by simp, by simp, by simp, by simp, Or.inl List.mem_cons_self⟩
  refine ⟨hi.nodup, ?_, ?_, hi.entry⟩
  · rcases hi.root with h | h
    · cases h
    · exact h
  · intro i hm d hd
    rw [hi.deps i hm] at hd
    obtain ⟨e, he, rfl⟩ := List.mem_map.1 hd
    rcases hi.closed i hm e he with h | h
    · cases h
    · exact h

/-- C165: without collisions every project that is needed is in the table, with its source and its dependencies. -/
theorem collect_complete_partial (dir : Text) (vcdeps : Text → List Text) (root : Text × Text) (fuel : Nat) (t : List Info) (h : collect dir vcdeps fuel [root] [] = some t)
    (hn : NoCollision dir vcdeps root) (x : Text × Text) (hx : Reach vcdeps root x) :
    ∃ i ∈ t, i.path = projectBuildPath dir x.1 x.2 ∧ i.src = x.1 ∧ i.deps = (vcdeps x.1).map fun d => projectBuildPath dir (parseDependency d).1 (parseDependency d).2 := by
  have hi := collect_inv fuel [root] [] t h (root := root) ⟨fun x hx => by (rw [List.mem_singleton.1 hx]; exact .refl), by simp, by simp, by simp, by simp, Or.inl List.mem_cons_self⟩
  have up : ∀ x, Reach vcdeps root x → (∃ i ∈ t, i.path = projectBuildPath dir x.1 x.2) →
      ∃ i ∈ t, i.path = projectBuildPath dir x.1 x.2 ∧ i.src = x.1 ∧ i.deps = (vcdeps x.1).map fun d => projectBuildPath dir (parseDependency d).1 (parseDependency d).2 := by
    rintro x hx ⟨i, hm, e⟩
    obtain ⟨type, hr, e2⟩ := hi.entry i hm
    have : (i.src, type) = x := hn _ _ hr hx (by rw [← e2, e])
    have hs : i.src = x.1 := by rw [← this]
    exact ⟨i, hm, e, hs, by rw [hi.deps i hm, hs]⟩
  induction hx with
  | refl =>
    refine up _ .refl ?_
    rcases hi.root with h | h
    · cases h
    · exact h
  | step y d hy hd ih =>
    refine up _ (.step y d hy hd) ?_
    obtain ⟨i, hm, _, hs, _⟩ := ih
    rcases hi.closed i hm d (by rw [hs]; exact hd) with h | h
    · cases h
    · exact h

/-- The number of dependency lines of what is not in the table yet. -/
def weight (dir : Text) (vcdeps : Text → List Text) (table : List Info) : List (Text × Text) → Nat
  | [] => 0
  | x :: xs => (if table.any fun i => decide (i.path = projectBuildPath dir x.1 x.2) then 0 else (vcdeps x.1).length) + weight dir vcdeps table xs

theorem weight_le (i : Info) (table : List Info) (V : List (Text × Text)) : weight dir vcdeps (i :: table) V ≤ weight dir vcdeps table V := by
  induction V with
  | nil => exact Nat.le_refl _
  | cons x xs ih =>
    unfold weight
    simp only [List.any_cons]
    by_cases hA : (table.any fun i => decide (i.path = projectBuildPath dir x.1 x.2)) = true
    · simp only [hA, Bool.or_true, if_true]; omega
    · simp only [Bool.not_eq_true] at hA
      simp only [hA, Bool.or_false, Bool.false_eq_true, if_false]
      split <;> omega

theorem weight_new (i : Info) (table : List Info) (V : List (Text × Text)) (x : Text × Text) (hx : x ∈ V) (hp : i.path = projectBuildPath dir x.1 x.2)
    (hno : (table.any fun i => decide (i.path = projectBuildPath dir x.1 x.2)) = false) : weight dir vcdeps (i :: table) V + (vcdeps x.1).length ≤ weight dir vcdeps table V := by
  induction V with
  | nil => cases hx
  | cons y ys ih =>
    unfold weight
    rcases List.mem_cons.1 hx with rfl | hx
    · have := weight_le (dir := dir) (vcdeps := vcdeps) i table ys
      rw [hno]
      simp only [List.any_cons, hp, decide_true, Bool.true_or, if_true, Bool.false_eq_true, if_false]
      omega
    · have := ih hx
      simp only [List.any_cons]
      by_cases hA : (table.any fun i => decide (i.path = projectBuildPath dir y.1 y.2)) = true
      · simp only [hA, Bool.or_true, if_true]; omega
      · simp only [Bool.not_eq_true] at hA
        simp only [hA, Bool.or_false, Bool.false_eq_true, if_false]
        split <;> omega

/-- C165: the collection ends if the projects are finitely many, whatever cycles there are. -/
theorem collect_ends (dir : Text) (vcdeps : Text → List Text) (root : Text × Text) (V : List (Text × Text)) (hr : root ∈ V)
    (hV : ∀ x ∈ V, ∀ d ∈ vcdeps x.1, parseDependency d ∈ V) : ∃ fuel t, collect dir vcdeps fuel [root] [] = some t := by
  have key : ∀ fuel queue table, (∀ x ∈ queue, x ∈ V) → queue.length + weight dir vcdeps table V ≤ fuel → ∃ t, collect dir vcdeps fuel queue table = some t := by
    intro fuel
    induction fuel with
    | zero =>
      intro queue table _ hl
      cases queue with
      | nil => exact ⟨table, rfl⟩
      | cons x q => simp only [List.length_cons] at hl; omega
    | succ fuel ih =>
      intro queue table hq hl
      cases queue with
      | nil => exact ⟨table, rfl⟩
      | cons x queue =>
        obtain ⟨src, type⟩ := x
        simp only [List.length_cons] at hl
        unfold collect
        split
        · exact ih queue table (fun x hx => hq x (List.mem_cons_of_mem _ hx)) (by omega)
        · rename_i ha
          apply ih
          · intro x hx
            rcases List.mem_append.1 hx with hx | hx
            · exact hq x (List.mem_cons_of_mem _ hx)
            · obtain ⟨d, hd, rfl⟩ := List.mem_map.1 hx
              exact hV _ (hq (src, type) List.mem_cons_self) d hd
          · have := weight_new (dir := dir) (vcdeps := vcdeps) { path := projectBuildPath dir src type, src := src, deps := (vcdeps src).map fun d => projectBuildPath dir (parseDependency d).1 (parseDependency d).2 } table V (src, type)
              (hq _ List.mem_cons_self) rfl (by simpa using ha)
            simp only [List.length_append, List.length_map] at *
            omega
  obtain ⟨t, ht⟩ := key _ [root] [] (fun x hx => by (rw [List.mem_singleton.1 hx]; exact hr)) (Nat.le_refl _)
  exact ⟨_, t, ht⟩

end

/-- The project `a` needs `c-x`, and `c` in the variant `x`. -/
def vcCollide (src : Text) : List Text := if src = ['a'] then [['g', '/', 'c', '-', 'x'], ['g', '/', 'c', ';', 'x']] else []

/-- C165, false of the code: `c-x` and the variant `x` of `c` have the same build directory, and `c` is never built. -/
theorem collect_collision_false : ∃ (dir : Text) (vcdeps : Text → List Text) (root x : Text × Text) (fuel : Nat) (t : List Info),
    collect dir vcdeps fuel [root] [] = some t ∧ Reach vcdeps root x ∧ ∀ i ∈ t, i.src ≠ x.1 := by
  refine ⟨['o'], vcCollide, (['a'], []), (['c'], ['x']), 10, [{ path := ['o', '/', 'c', '-', 'x'], src := ['c', '-', 'x'], deps := [] }, { path := ['o', '/', 'a'], src := ['a'], deps := [['o', '/', 'c', '-', 'x'], ['o', '/', 'c', '-', 'x']] }], ?_, ?_, ?_⟩
  · decide +kernel
  · have : (['c'], ['x']) = parseDependency ['g', '/', 'c', ';', 'x'] := by decide +kernel
    rw [this]
    exact .step _ _ .refl (by decide +kernel)
  · decide +kernel

example : (collect ['o'] (fun s => if s = ['a'] then [['g', '/', 'b'], ['g', '/', 'c', ';', 'x']] else if s = ['b'] then [['g', '/', 'c', ';', 'x']] else []) 10 [(['a'], [])] []).map (·.map (·.path)) =
    some [['o', '/', 'c', '-', 'x'], ['o', '/', 'b'], ['o', '/', 'a']] := by decide +kernel

/-! ## Walk -/

section
variable {α : Type} [DecidableEq α] {deps : α → List α}

structure WInv (deps : α → List α) (A : Prop) (stack : List α) (w : Walk α) : Prop where
  vis : ∀ x, x ∈ w.visited ↔ .pre x ∈ w.log
  cov : ∀ x ∈ w.visited, .post x ∈ w.log ∨ x ∈ stack
  excl : ∀ x ∈ stack, .post x ∉ w.log
  sub : ∀ x, .post x ∈ w.log → x ∈ w.visited
  ord : Ordered deps A w.log

theorem walk_inv (A : Prop) (rank : α → Nat) (U : α → Prop) (hU : ∀ x, U x → ∀ d ∈ deps x, U d) (hA : A → ∀ x, U x → ∀ d ∈ deps x, rank d < rank x)
    (fuel : Nat) (xs stack : List α) (w w' : Walk α) (h : walk deps fuel xs w = some w') (hi : WInv deps A stack w) (hxs : ∀ x ∈ xs, U x) (hw : ∀ x ∈ w.visited, U x)
    (hs : A → ∀ x ∈ xs, ∀ s ∈ stack, rank x < rank s) (hsv : ∀ s ∈ stack, s ∈ w.visited) :
    WInv deps A stack w' ∧ (∀ x ∈ w.visited, x ∈ w'.visited) ∧ (∀ x ∈ xs, x ∈ w'.visited) ∧ (∀ x ∈ w'.visited, U x) := by
  induction fuel generalizing xs stack w w' with
  | zero =>
    cases xs with
    | nil => simp only [walk, Option.some.injEq] at h; subst h; exact ⟨hi, fun x hx => hx, by simp, hw⟩
    | cons x xs => simp [walk] at h
  | succ fuel ih =>
    cases xs with
    | nil => simp only [walk, Option.some.injEq] at h; subst h; exact ⟨hi, fun x hx => hx, by simp, hw⟩
    | cons x xs =>
      have hUx := hxs x List.mem_cons_self
      have hxs' : ∀ y ∈ xs, U y := fun y hy => hxs y (List.mem_cons_of_mem _ hy)
      have hs' : A → ∀ y ∈ xs, ∀ s ∈ stack, rank y < rank s := fun a y hy => hs a y (List.mem_cons_of_mem _ hy)
      unfold walk at h
      split at h
      · rename_i hv
        obtain ⟨r1, r2, r3, r4⟩ := ih xs stack w w' h hi hxs' hw hs' hsv
        refine ⟨r1, r2, ?_, r4⟩
        intro y hy
        rcases List.mem_cons.1 hy with rfl | hy
        · exact r2 _ hv
        · exact r3 y hy
      · rename_i hv
        cases hwk : walk deps fuel (deps x) { visited := x :: w.visited, log := .pre x :: w.log } with
        | none => rw [hwk] at h; cases h
        | some w1 =>
          rw [hwk] at h
          simp only at h
          have hnp : Ev.post x ∉ w.log := fun hp => hv (hi.sub x hp)
          have i1 : WInv deps A (x :: stack) { visited := x :: w.visited, log := .pre x :: w.log } := by
            refine ⟨?_, ?_, ?_, ?_, ?_⟩
            · intro y
              simp only [List.mem_cons, Ev.pre.injEq]
              rw [hi.vis y]
            · intro y hy
              rcases List.mem_cons.1 hy with rfl | hy
              · exact Or.inr List.mem_cons_self
              · rcases hi.cov y hy with h | h
                · exact Or.inl (List.mem_cons_of_mem _ h)
                · exact Or.inr (List.mem_cons_of_mem _ h)
            · intro y hy hp
              simp only [List.mem_cons, reduceCtorEq, false_or] at hp
              rcases List.mem_cons.1 hy with rfl | hy
              · exact hnp hp
              · exact hi.excl y hy hp
            · intro y hp
              simp only [List.mem_cons, reduceCtorEq, false_or] at hp
              exact List.mem_cons_of_mem _ (hi.sub y hp)
            · exact ⟨fun hp => hv ((hi.vis x).2 hp), hnp, hi.ord⟩
          have := ih (deps x) (x :: stack) _ w1 hwk i1 (hU x hUx)
            (fun y hy => by
              rcases List.mem_cons.1 hy with rfl | hy
              · exact hUx
              · exact hw y hy)
            (fun a y hy s hsm => by
              have h1 := hA a x hUx y hy
              rcases List.mem_cons.1 hsm with rfl | hsm
              · exact h1
              · exact Nat.lt_trans h1 (hs a x List.mem_cons_self s hsm))
            (fun s hsm => by
              rcases List.mem_cons.1 hsm with rfl | hsm
              · exact List.mem_cons_self
              · exact List.mem_cons_of_mem _ (hsv s hsm))
          obtain ⟨r1, r2, r3, r4⟩ := this
          have hxv : x ∈ w1.visited := r2 x List.mem_cons_self
          have hxns : x ∉ stack := fun hm => hv (hsv x hm)
          have i2 : WInv deps A stack { w1 with log := .post x :: w1.log } := by
            refine ⟨?_, ?_, ?_, ?_, ?_⟩
            · intro y
              simp only [List.mem_cons, reduceCtorEq, false_or]
              exact r1.vis y
            · intro y hy
              rcases r1.cov y hy with h | h
              · exact Or.inl (List.mem_cons_of_mem _ h)
              · rcases List.mem_cons.1 h with rfl | h
                · exact Or.inl List.mem_cons_self
                · exact Or.inr h
            · intro y hy hp
              simp only [List.mem_cons, Ev.post.injEq] at hp
              rcases hp with rfl | hp
              · exact hxns hy
              · exact r1.excl y (List.mem_cons_of_mem _ hy) hp
            · intro y hp
              simp only [List.mem_cons, Ev.post.injEq] at hp
              rcases hp with rfl | hp
              · exact hxv
              · exact r1.sub y hp
            · refine ⟨r1.excl x List.mem_cons_self, (r1.vis x).1 hxv, fun d hd => (r1.vis d).1 (r3 d hd), ?_, r1.ord⟩
              intro a d hd
              rcases r1.cov d (r3 d hd) with h | h
              · exact h
              · exfalso
                have h1 := hA a x hUx d hd
                rcases List.mem_cons.1 h with rfl | h
                · omega
                · have := hs a x List.mem_cons_self d h
                  omega
          obtain ⟨q1, q2, q3, q4⟩ := ih xs stack _ w' h i2 hxs' r4 hs' (fun s hsm => r2 s (List.mem_cons_of_mem _ (hsv s hsm)))
          refine ⟨q1, fun y hy => q2 y (r2 y (List.mem_cons_of_mem _ hy)), ?_, q4⟩
          intro y hy
          rcases List.mem_cons.1 hy with rfl | hy
          · exact q2 _ hxv
          · exact q3 y hy

theorem ordered_closed {A : Prop} {log : List (Ev α)} (h : Ordered deps A log) (x : α) (hp : .post x ∈ log) (d : α) (hd : d ∈ deps x) : .pre d ∈ log := by
  induction log with
  | nil => cases hp
  | cons e log ih =>
    cases e with
    | pre y =>
      simp only [List.mem_cons, reduceCtorEq, false_or] at hp
      exact List.mem_cons_of_mem _ (ih h.2.2 hp)
    | post y =>
      rcases List.mem_cons.1 hp with e | hp
      · cases e
        exact List.mem_cons_of_mem _ (h.2.2.1 d hd)
      · exact List.mem_cons_of_mem _ (ih h.2.2.2.2 hp)

/-- C166: `depWalk` calls `pre_fn` and `post_fn` once for every project that is needed and for no other, `post_fn` after `pre_fn`; if there is no cycle, `post_fn` for a project after `post_fn` for all it depends on. -/
theorem depWalk_order (deps : α → List α) (fuel : Nat) (root : α) (w : Walk α) (h : depWalk deps fuel root = some w) :
    Ordered deps (∃ rank : α → Nat, ∀ x, Needs deps root x → ∀ d ∈ deps x, rank d < rank x) w.log ∧
      (∀ x, .post x ∈ w.log ↔ Needs deps root x) ∧ (∀ x, .pre x ∈ w.log ↔ Needs deps root x) := by
  have main : ∀ (A : Prop) (rank : α → Nat), (A → ∀ x, Needs deps root x → ∀ d ∈ deps x, rank d < rank x) → WInv deps A [] w ∧ (∀ x ∈ [root], x ∈ w.visited) ∧ ∀ x ∈ w.visited, Needs deps root x := by
    intro A rank hA
    have := walk_inv A rank (Needs deps root) (fun x hx d hd => .step x d hx hd) hA fuel [root] [] _ w h
      ⟨by simp, by simp, by simp, by simp, trivial⟩ (fun x hx => by rw [List.mem_singleton.1 hx]; exact .refl) (by simp) (by simp) (by simp)
    exact ⟨this.1, this.2.2.1, this.2.2.2⟩
  obtain ⟨i1, hr, hu⟩ := main False (fun _ => 0) (fun f => f.elim)
  have hall : ∀ x, Needs deps root x → x ∈ w.visited := by
    intro x hx
    induction hx with
    | refl => exact hr root List.mem_cons_self
    | step y d hy hd ih =>
      rcases i1.cov y ih with hp | hp
      · exact (i1.vis d).2 (ordered_closed i1.ord y hp d hd)
      · cases hp
  refine ⟨?_, ?_, ?_⟩
  · by_cases hex : ∃ rank : α → Nat, ∀ x, Needs deps root x → ∀ d ∈ deps x, rank d < rank x
    · obtain ⟨rank, hrank⟩ := hex
      exact (main _ rank (fun _ => hrank)).1.ord
    · exact (main _ (fun _ => 0) (fun a => absurd a hex)).1.ord
  · intro x
    constructor
    · intro hp; exact hu x (i1.sub x hp)
    · intro hx
      rcases i1.cov x (hall x hx) with hp | hp
      · exact hp
      · cases hp
  · intro x
    rw [← i1.vis x]
    exact ⟨hu x, hall x⟩

theorem walk_more (f k : Nat) (xs : List α) (w w' : Walk α) (h : walk deps f xs w = some w') : walk deps (f + k) xs w = some w' := by
  induction f generalizing xs w w' with
  | zero =>
    cases xs with
    | nil => cases k <;> exact h
    | cons x xs => simp [walk] at h
  | succ f ih =>
    rw [Nat.succ_add]
    cases xs with
    | nil => exact h
    | cons x xs =>
      unfold walk at h ⊢
      split
      · rename_i hv
        rw [if_pos hv] at h
        exact ih _ _ _ h
      · rename_i hv
        rw [if_neg hv] at h
        cases hw : walk deps f (deps x) { visited := x :: w.visited, log := .pre x :: w.log } with
        | none => rw [hw] at h; cases h
        | some w1 =>
          rw [hw] at h
          rw [ih _ _ _ hw]
          exact ih _ _ _ h

theorem walk_visited (f : Nat) (xs : List α) (w w' : Walk α) (h : walk deps f xs w = some w') : ∀ x ∈ w.visited, x ∈ w'.visited := by
  induction f generalizing xs w w' with
  | zero =>
    cases xs with
    | nil => simp only [walk, Option.some.injEq] at h; subst h; exact fun x hx => hx
    | cons x xs => simp [walk] at h
  | succ f ih =>
    cases xs with
    | nil => simp only [walk, Option.some.injEq] at h; subst h; exact fun x hx => hx
    | cons x xs =>
      unfold walk at h
      split at h
      · exact ih _ _ _ h
      · cases hw : walk deps f (deps x) { visited := x :: w.visited, log := .pre x :: w.log } with
        | none => rw [hw] at h; cases h
        | some w1 =>
          rw [hw] at h
          intro y hy
          exact ih _ _ _ h y (ih _ _ _ hw y (List.mem_cons_of_mem _ hy))

/-- How many have not been visited. -/
def unvisited (V visited : List α) : Nat := (V.filter fun x => !decide (x ∈ visited)).length

theorem unvisited_mono (V a b : List α) (h : ∀ x ∈ a, x ∈ b) : unvisited V b ≤ unvisited V a := by
  unfold unvisited
  induction V with
  | nil => exact Nat.le_refl _
  | cons v V ih =>
    simp only [List.filter_cons]
    by_cases hb : v ∈ b
    · by_cases ha : v ∈ a <;> simp [ha, hb] <;> omega
    · have ha : v ∉ a := fun h' => hb (h v h')
      simp [ha, hb]
      omega

theorem unvisited_lt (V a : List α) (x : α) (hx : x ∈ V) (ha : x ∉ a) : unvisited V (x :: a) < unvisited V a := by
  induction V with
  | nil => cases hx
  | cons v V ih =>
    by_cases e : v = x
    · subst e
      have := unvisited_mono V a (v :: a) (fun y hy => List.mem_cons_of_mem _ hy)
      unfold unvisited at *
      simp only [List.filter_cons]
      simp [ha]
      simpa using Nat.lt_succ_of_le this
    · have hx' : x ∈ V := by
        rcases List.mem_cons.1 hx with h | h
        · exact absurd h.symm e
        · exact h
      have := ih hx'
      unfold unvisited at *
      simp only [List.filter_cons]
      by_cases hv : v ∈ a
      · simp [hv] at this ⊢; exact this
      · simp [hv, e] at this ⊢; exact this

/-- C166: it ends if the projects are finitely many, whatever cycles there are. -/
theorem depWalk_ends (deps : α → List α) (root : α) (V : List α) (hr : root ∈ V) (hV : ∀ x ∈ V, ∀ d ∈ deps x, d ∈ V) : ∃ fuel w, depWalk deps fuel root = some w := by
  have key : ∀ u (xs : List α) (w : Walk α), (∀ x ∈ xs, x ∈ V) → unvisited V w.visited ≤ u → ∃ f w', walk deps f xs w = some w' := by
    intro u
    induction u with
    | zero =>
      intro xs
      induction xs with
      | nil => intro w _ _; exact ⟨0, w, rfl⟩
      | cons x xs ihx =>
        intro w hxs hu
        have hv : x ∈ w.visited := by
          by_cases h : x ∈ w.visited
          · exact h
          · have := unvisited_lt V w.visited x (hxs x List.mem_cons_self) h
            omega
        obtain ⟨f, w', h⟩ := ihx w (fun y hy => hxs y (List.mem_cons_of_mem _ hy)) hu
        exact ⟨f + 1, w', by unfold walk; rw [if_pos hv]; exact h⟩
    | succ u ih =>
      intro xs
      induction xs with
      | nil => intro w _ _; exact ⟨0, w, rfl⟩
      | cons x xs ihx =>
        intro w hxs hu
        have hxs' : ∀ y ∈ xs, y ∈ V := fun y hy => hxs y (List.mem_cons_of_mem _ hy)
        by_cases hv : x ∈ w.visited
        · obtain ⟨f, w', h⟩ := ihx w hxs' hu
          exact ⟨f + 1, w', by unfold walk; rw [if_pos hv]; exact h⟩
        · have hlt := unvisited_lt V w.visited x (hxs x List.mem_cons_self) hv
          obtain ⟨f1, w1, h1⟩ := ih (deps x) { visited := x :: w.visited, log := .pre x :: w.log } (hV x (hxs x List.mem_cons_self)) (by show unvisited V (x :: w.visited) ≤ u; omega)
          have hmono := unvisited_mono V _ _ (walk_visited f1 _ _ _ h1)
          obtain ⟨f2, w2, h2⟩ := ihx { w1 with log := .post x :: w1.log } hxs' (by
            show unvisited V w1.visited ≤ u + 1
            have : unvisited V w1.visited ≤ unvisited V (x :: w.visited) := hmono
            omega)
          refine ⟨f1 + f2 + 1, w2, ?_⟩
          unfold walk
          rw [if_neg hv, walk_more f1 f2 _ _ _ h1]
          simp only
          rw [Nat.add_comm f1 f2]
          exact walk_more f2 f1 _ _ _ h2
  obtain ⟨f, w, h⟩ := key _ [root] { visited := [], log := [] } (fun x hx => by rw [List.mem_singleton.1 hx]; exact hr) (Nat.le_refl _)
  exact ⟨f, w, h⟩

end

/-- 0 needs 1 and 2, both need 3. -/
example : (depWalk (fun n : Nat => if n = 0 then [1, 2] else if n < 3 then [3] else []) 20 0).map (·.log) =
    some [.post 0, .post 2, .pre 2, .post 1, .post 3, .pre 3, .pre 1, .pre 0] := by decide +kernel

/-- A cycle: the second call for 1 comes before that for 0, on which it depends. -/
example : (depWalk (fun n : Nat => [1 - n]) 20 0).map (·.log) = some [.post 0, .post 1, .pre 1, .pre 0] := by decide +kernel

/-! ## Names -/

theorem cutLast_none (c : Char) (t : Text) (h : c ∉ t) : cutLast c t = none := by
  induction t with
  | nil => rfl
  | cons x xs ih =>
    simp only [List.mem_cons, not_or] at h
    unfold cutLast
    rw [ih h.2]
    simp [Ne.symm h.1]

theorem cutLast_append (c : Char) (a b : Text) (h : c ∉ b) : cutLast c (a ++ c :: b) = some (a, b) := by
  induction a with
  | nil => simp [cutLast, cutLast_none c b h]
  | cons x xs ih => simp [cutLast, ih]

theorem word_no (c : Char) (hc : isWord c = false) (t : Text) (h : word t = true) : c ∉ t := by
  intro hm
  unfold word at h
  simp only [Bool.and_eq_true, List.all_eq_true] at h
  have := h.2 c hm
  rw [hc] at this; cases this

theorem splitType_type (c : Char) (hc : isWord c = false) (p t : Text) (hp : p ≠ []) (ht : word t = true) : splitType c (p ++ c :: t) = (p, t) := by
  unfold splitType
  rw [cutLast_append c p t (word_no c hc t ht)]
  cases p with
  | nil => exact absurd rfl hp
  | cons x xs => simp [ht]

theorem splitType_none (c : Char) (p : Text) (h : c ∉ p) : splitType c p = (p, []) := by
  unfold splitType
  rw [cutLast_none c p h]

/-- C167: a dependency line gives back the project and the variant. -/
theorem parseDependency_roundtrip (repo p t : Text) (hr : '/' ∉ repo) (hp : p ≠ []) :
    (word t = true → parseDependency (repo ++ '/' :: (p ++ ';' :: t)) = (p, t)) ∧ (';' ∉ p → parseDependency (repo ++ '/' :: p) = (p, [])) := by
  have hs : ∀ q : Text, stripDir (repo ++ '/' :: q) = q := by
    intro q
    unfold stripDir
    rw [if_pos (by simp)]
    have : (repo ++ '/' :: q).dropWhile (· ≠ '/') = '/' :: q := by
      clear hp
      induction repo with
      | nil => simp
      | cons x xs ih =>
        simp only [List.mem_cons, not_or] at hr
        have hx : (x ≠ '/') := Ne.symm hr.1
        rw [List.cons_append, List.dropWhile_cons_of_pos (by simpa using hx)]
        exact ih hr.2
    rw [this]
    rfl
  unfold parseDependency
  constructor
  · intro ht
    rw [hs]
    exact splitType_type ';' (by decide) p t hp ht
  · intro hq
    rw [hs]
    exact splitType_none ';' p hq

theorem takeWhile_comp (c s : Text) (hc : '/' ∉ c) (hs : s = [] ∨ ∃ r, s = '/' :: r) :
    (c ++ s).takeWhile (· ≠ '/') = c ∧ (c ++ s).dropWhile (· ≠ '/') = s := by
  induction c with
  | nil =>
    rcases hs with rfl | ⟨r, rfl⟩
    · exact ⟨rfl, rfl⟩
    · simp
  | cons x xs ih =>
    simp only [List.mem_cons, not_or] at hc
    have hx : (x ≠ '/') := Ne.symm hc.1
    have := ih hc.2
    rw [List.cons_append, List.takeWhile_cons_of_pos (by simpa using hx), List.dropWhile_cons_of_pos (by simpa using hx), this.1, this.2]
    exact ⟨rfl, rfl⟩

theorem under_append (base c s : Text) (hc : '/' ∉ c) (hne : c ≠ []) (hs : s = [] ∨ ∃ r, r ≠ [] ∧ s = '/' :: r) : under base (base ++ '/' :: (c ++ s)) = some (c, s) := by
  unfold under
  have h1 : (base ++ ['/']).isPrefixOf (base ++ '/' :: (c ++ s)) = true := by
    rw [List.isPrefixOf_iff_prefix]
    exact ⟨c ++ s, by simp⟩
  rw [if_pos h1]
  have h2 : (base ++ '/' :: (c ++ s)).drop (base.length + 1) = c ++ s := by
    rw [List.drop_append]
    simp
  have h3 := takeWhile_comp c s hc (by
    rcases hs with h | ⟨r, _, h⟩
    · exact Or.inl h
    · exact Or.inr ⟨r, h⟩)
  simp only [h2]
  rw [h3.1, h3.2, if_neg]
  rintro (h | h)
  · exact hne h
  · rcases hs with h' | ⟨r, hr, h'⟩
    · rw [h] at h'; cases h'
    · rw [h] at h'
      cases h'
      exact hr rfl

/-- What the property asks: from a directory in a build tree `divideDir` finds the project, the variant and the directory below. -/
def DividesBack (projects opt debug : Text) (p t s : Text) : Prop :=
  divideDir projects opt debug (projectBuildPath opt p t ++ s) = some (p, s, t)

/-- C168: from a directory in the optimised build tree (outside of the source tree) the project is found, if a variant is built or the name of the project does not look like one with a variant. -/
theorem divideDir_partial (projects opt debug p t s : Text) (hp : p ≠ []) (hps : '/' ∉ p) (hs : s = [] ∨ ∃ r, r ≠ [] ∧ s = '/' :: r)
    (hu : under projects (projectBuildPath opt p t ++ s) = none) (ht : word t = true ∨ (t = [] ∧ splitType '-' p = (p, []))) : DividesBack projects opt debug p t s := by
  unfold DividesBack divideDir
  rw [hu]
  simp only
  rcases ht with ht | ⟨rfl, ht⟩
  · have hne : t ≠ [] := by rintro rfl; simp [word] at ht
    have e : projectBuildPath opt p t ++ s = opt ++ '/' :: ((p ++ '-' :: t) ++ s) := by
      simp [projectBuildPath, hne]
    have hsl : '/' ∉ p ++ '-' :: t := by
      simp only [List.mem_append, List.mem_cons, not_or]
      exact ⟨hps, by decide, word_no '/' (by decide) t ht⟩
    rw [e, under_append opt (p ++ '-' :: t) s hsl (by simp) hs]
    simp only [splitType_type '-' (by decide) p t hp ht]
  · have e : projectBuildPath opt p [] ++ s = opt ++ '/' :: (p ++ s) := by simp [projectBuildPath]
    rw [e, under_append opt p s hps hp hs]
    simp only [ht]

/-- C168, false of the code: in the build directory of the project `batch-parallel`, it is taken for the variant `parallel` of a project `batch`. -/
theorem divideDir_false : ∃ projects opt debug p : Text, p ≠ [] ∧ '/' ∉ p ∧ under projects (projectBuildPath opt p []) = none ∧ ¬ DividesBack projects opt debug p [] [] := by
  refine ⟨['/', 'p'], ['/', 'o'], ['/', 'd'], ['b', 'a', 't', 'c', 'h', '-', 'p', 'a', 'r', 'a', 'l', 'l', 'e', 'l'], by decide, by decide, by decide, ?_⟩
  unfold DividesBack
  decide

example : DividesBack ['/', 'p'] ['/', 'o'] ['/', 'd'] ['a', '-', 'b'] ['x', '1'] ['/', 's'] := by unfold DividesBack; decide

/-- C168: from the source tree the project is found, whatever its name. -/
theorem divideDir_src (projects opt debug p s : Text) (hp : p ≠ []) (hps : '/' ∉ p) (hs : s = [] ∨ ∃ r, r ≠ [] ∧ s = '/' :: r) :
    divideDir projects opt debug (projects ++ '/' :: (p ++ s)) = some (p, s, []) := by
  unfold divideDir
  rw [under_append projects p s hps hp hs]

end Verif.Deptool.Deps
