import Verif.DepVC.Pull
import Verif.Deptool.DepsProps

/-! # Properties of deptool pull (C237) -/

namespace Verif.DepVC.Pull

open Verif.Deptool.Deps (Text Needs Ordered)

/-! ## Specification -/

/-- Every project was looked at before it was pulled; newest event first. -/
def CheckedFirst {α : Type} : List (Ev α) → Prop
  | [] => True
  | .checked _ :: log => CheckedFirst log
  | .pulled x :: log => .checked x ∈ log ∧ .pulled x ∉ log ∧ CheckedFirst log

/-- Dependencies were pulled before what needs them; newest event first. -/
def DepsFirst {α : Type} (deps : α → List α) : List (Ev α) → Prop
  | [] => True
  | .checked _ :: log => DepsFirst deps log
  | .pulled x :: log => (∀ d ∈ deps x, .pulled d ∈ log) ∧ DepsFirst deps log

/-- A project may be pulled: it has no changes, or `--unsafe` was given. -/
def MayPull {α V : Type} (e : Env α V) (x : α) : Prop := e.unsafePull = true ∨ e.dirty x = false

/-- What holds whether the program dies or not: `before` are the versions at the start. -/
structure Fair {α V : Type} (e : Env α V) (root : α) (before : α → V) (s : St α V) : Prop where
  checked : CheckedFirst s.log
  clean : ∀ x, .checked x ∈ s.log → MayPull e x
  arrived : ∀ x, .pulled x ∈ s.log → e.arrives x = some (s.vers x)
  kept : ∀ x, .pulled x ∉ s.log → s.vers x = before x
  needed : ∀ x, .checked x ∈ s.log → Needs (fun x => e.depends x (before x)) root x

/-- The state at the end, if the program ended. -/
def Out.state {α V : Type} : Out α V → Option (St α V)
  | .stuck => none
  | .died s => some s
  | .done s => some s

/-! ## Lemmas -/

section
variable {α V : Type} [DecidableEq α]

theorem refuses_iff (e : Env α V) (x : α) : refuses e x = false ↔ MayPull e x := by
  unfold refuses MayPull
  cases e.unsafePull <;> simp

/-- What is kept up along the walk; `open` are the projects in progress. -/
structure Inv (e : Env α V) (root : α) (before : α → V) (s : St α V) : Prop extends Fair e root before s where
  seen : ∀ x, .pulled x ∈ s.log → x ∈ s.visited
  seen' : ∀ x, .checked x ∈ s.log → x ∈ s.visited

/-- `Died s` is explained by a project. -/
def Why (e : Env α V) (root : α) (before : α → V) (s : St α V) : Prop :=
  ∃ x, Needs (fun x => e.depends x (before x)) root x ∧ .pulled x ∉ s.log ∧ (¬ MayPull e x ∧ .checked x ∉ s.log ∨ .checked x ∈ s.log ∧ e.arrives x = none)

/-- Nothing that is open in `s` is pulled in `s'`. -/
def Grows (s s' : St α V) : Prop :=
  (∀ x ∈ s.visited, x ∈ s'.visited) ∧ (∀ ev ∈ s.log, ev ∈ s'.log) ∧ ∀ x ∈ s.visited, .pulled x ∈ s'.log → .pulled x ∈ s.log

theorem Grows.trans {s t u : St α V} (a : Grows s t) (b : Grows t u) : Grows s u :=
  ⟨fun x h => b.1 x (a.1 x h), fun v h => b.2.1 v (a.2.1 v h), fun x h p => a.2.2 x h (b.2.2 x (a.1 x h) p)⟩

theorem walk_inv (e : Env α V) (root : α) (before : α → V) (fuel : Nat) : ∀ (xs : List α) (s : St α V), Inv e root before s →
    (∀ x ∈ xs, Needs (fun x => e.depends x (before x)) root x) →
    match walk e fuel xs s with
    | .stuck => True
    | .died s' => Inv e root before s' ∧ Why e root before s'
    | .done s' => Inv e root before s' ∧ Grows s s' := by
  induction fuel with
  | zero =>
    intro xs s hs hx
    cases xs with
    | nil => exact ⟨hs, fun _ h => h, fun _ h => h, fun _ _ h => h⟩
    | cons x xs => trivial
  | succ fuel ih =>
    intro xs s hs hx
    cases xs with
    | nil => exact ⟨hs, fun _ h => h, fun _ h => h, fun _ _ h => h⟩
    | cons x xs =>
      rw [walk]
      by_cases hv : x ∈ s.visited
      · rw [if_pos hv]
        exact ih xs s hs (fun y hy => hx y (List.mem_cons_of_mem _ hy))
      · rw [if_neg hv]
        have hnx : Needs (fun x => e.depends x (before x)) root x := hx x List.mem_cons_self
        have hxp : .pulled x ∉ s.log := fun h => hv (hs.seen x h)
        have hxc : .checked x ∉ s.log := fun h => hv (hs.seen' x h)
        cases hr : refuses e x with
        | true =>
          simp only [if_true]
          refine ⟨⟨⟨hs.checked, hs.clean, hs.arrived, hs.kept, hs.needed⟩, fun y h => List.mem_cons_of_mem _ (hs.seen y h), fun y h => List.mem_cons_of_mem _ (hs.seen' y h)⟩, x, hnx, hxp, .inl ⟨?_, hxc⟩⟩
          intro h
          rw [(refuses_iff e x).2 h] at hr
          cases hr
        | false =>
          simp only [Bool.false_eq_true, if_false]
          have hm : MayPull e x := (refuses_iff e x).1 hr
          have hs1 : Inv e root before { s with visited := x :: s.visited, log := .checked x :: s.log } := by
            refine ⟨⟨hs.checked, ?_, ?_, ?_, ?_⟩, ?_, ?_⟩
            · intro y hy
              rcases List.mem_cons.1 hy with h | h
              · cases h; exact hm
              · exact hs.clean y h
            · intro y hy
              exact hs.arrived y (by simpa using hy)
            · intro y hy
              exact hs.kept y (by simpa using hy)
            · intro y hy
              rcases List.mem_cons.1 hy with h | h
              · cases h; exact hnx
              · exact hs.needed y h
            · intro y hy
              exact List.mem_cons_of_mem _ (hs.seen y (by simpa using hy))
            · intro y hy
              rcases List.mem_cons.1 hy with h | h
              · cases h; exact List.mem_cons_self
              · exact List.mem_cons_of_mem _ (hs.seen' y h)
          have hd : ∀ d ∈ e.depends x (s.vers x), Needs (fun x => e.depends x (before x)) root d := by
            intro d hd
            rw [hs.kept x hxp] at hd
            exact .step x d hnx hd
          have h1 := ih (e.depends x (s.vers x)) _ hs1 hd
          cases hw : walk e fuel (e.depends x (s.vers x)) { s with visited := x :: s.visited, log := .checked x :: s.log } with
          | stuck => trivial
          | died s' => rw [hw] at h1; exact h1
          | done s' =>
            rw [hw] at h1
            obtain ⟨i1, g1, g2, g3⟩ := h1
            have hxp' : .pulled x ∉ s'.log := fun h => hxp (by simpa using g3 x List.mem_cons_self h)
            have hxc' : .checked x ∈ s'.log := g2 _ List.mem_cons_self
            simp only
            cases ha : e.arrives x with
            | none => exact ⟨i1, x, hnx, hxp', .inr ⟨hxc', ha⟩⟩
            | some v =>
              simp only
              have hs2 : Inv e root before { s' with vers := fun y => if y = x then v else s'.vers y, log := .pulled x :: s'.log } := by
                refine ⟨⟨⟨hxc', hxp', i1.checked⟩, ?_, ?_, ?_, ?_⟩, ?_, ?_⟩
                · intro y hy
                  exact i1.clean y (by simpa using hy)
                · intro y hy
                  show e.arrives y = some (if y = x then v else s'.vers y)
                  by_cases hyx : y = x
                  · rw [if_pos hyx, hyx, ha]
                  · rw [if_neg hyx]
                    exact i1.arrived y (by simpa [hyx] using hy)
                · intro y hy
                  have hyx : y ≠ x := fun h => hy (by rw [h]; exact List.mem_cons_self)
                  show (if y = x then v else s'.vers y) = before y
                  rw [if_neg hyx]
                  exact i1.kept y (fun h => hy (List.mem_cons_of_mem _ h))
                · intro y hy
                  exact i1.needed y (by simpa using hy)
                · intro y hy
                  rcases List.mem_cons.1 hy with h | h
                  · cases h; exact g1 x List.mem_cons_self
                  · exact i1.seen y h
                · intro y hy
                  exact i1.seen' y (by simpa using hy)
              have h2 := ih xs _ hs2 (fun y hy => hx y (List.mem_cons_of_mem _ hy))
              cases hw2 : walk e fuel xs { s' with vers := fun y => if y = x then v else s'.vers y, log := .pulled x :: s'.log } with
              | stuck => trivial
              | died s'' => rw [hw2] at h2; exact h2
              | done s'' =>
                rw [hw2] at h2
                refine ⟨h2.1, Grows.trans (t := { s' with vers := fun y => if y = x then v else s'.vers y, log := .pulled x :: s'.log }) ⟨?_, ?_, ?_⟩ h2.2⟩
                · intro y hy
                  exact g1 y (List.mem_cons_of_mem _ hy)
                · intro ev hev
                  exact List.mem_cons_of_mem _ (g2 ev (List.mem_cons_of_mem _ hev))
                · intro y hy hp
                  have hyx : y ≠ x := fun h => hv (by rw [← h]; exact hy)
                  have : .pulled y ∈ s'.log := by simpa [hyx] using hp
                  simpa using g3 y (List.mem_cons_of_mem _ hy) this

/-- The event of the walk. -/
def conv : Ev α → Verif.Deptool.Deps.Ev α
  | .checked x => .pre x
  | .pulled x => .post x

theorem mem_pre (log : List (Ev α)) (x : α) : .pre x ∈ log.map conv ↔ .checked x ∈ log := by
  simp only [List.mem_map]
  constructor
  · rintro ⟨ev, h, e⟩
    cases ev with
    | checked y => cases e; exact h
    | pulled y => cases e
  · intro h; exact ⟨_, h, rfl⟩

theorem mem_post (log : List (Ev α)) (x : α) : .post x ∈ log.map conv ↔ .pulled x ∈ log := by
  simp only [List.mem_map]
  constructor
  · rintro ⟨ev, h, e⟩
    cases ev with
    | checked y => cases e
    | pulled y => cases e; exact h
  · intro h; exact ⟨_, h, rfl⟩

theorem walk_done (e : Env α V) (before : α → V) (fuel : Nat) : ∀ (xs : List α) (s s' : St α V), (∀ y, y ∉ s.visited → s.vers y = before y) →
    walk e fuel xs s = .done s' →
    (∀ y, y ∉ s'.visited → s'.vers y = before y) ∧ (∀ y ∈ s.visited, y ∈ s'.visited) ∧
    Verif.Deptool.Deps.walk (fun x => e.depends x (before x)) fuel xs ⟨s.visited, s.log.map conv⟩ = some ⟨s'.visited, s'.log.map conv⟩ := by
  induction fuel with
  | zero =>
    intro xs s s' hs h
    cases xs with
    | nil => cases h; exact ⟨hs, fun _ h => h, rfl⟩
    | cons x xs => cases h
  | succ fuel ih =>
    intro xs s s' hs h
    cases xs with
    | nil => cases h; exact ⟨hs, fun _ h => h, rfl⟩
    | cons x xs =>
      rw [walk] at h
      rw [Verif.Deptool.Deps.walk]
      by_cases hv : x ∈ s.visited
      · rw [if_pos hv] at h
        rw [if_pos hv]
        exact ih xs s s' hs h
      · rw [if_neg hv] at h
        rw [if_neg hv]
        cases hr : refuses e x with
        | true => rw [hr] at h; simp only [if_true] at h; cases h
        | false =>
          rw [hr] at h
          simp only [Bool.false_eq_true, if_false] at h
          cases hw : walk e fuel (e.depends x (s.vers x)) { s with visited := x :: s.visited, log := .checked x :: s.log } with
          | stuck => rw [hw] at h; cases h
          | died t => rw [hw] at h; cases h
          | done t =>
            rw [hw] at h
            simp only at h
            cases ha : e.arrives x with
            | none => rw [ha] at h; cases h
            | some v =>
              rw [ha] at h
              simp only at h
              obtain ⟨k1, k2, k3⟩ := ih (e.depends x (s.vers x)) { s with visited := x :: s.visited, log := .checked x :: s.log } t (fun y hy => hs y (fun hm => hy (List.mem_cons_of_mem _ hm))) hw
              rw [hs x hv] at k3
              simp only [List.map_cons, conv] at k3
              have hxt : x ∈ t.visited := k2 x List.mem_cons_self
              obtain ⟨l1, l2, l3⟩ := ih xs { t with vers := fun y => if y = x then v else t.vers y, log := .pulled x :: t.log } s' (fun y hy => by
                show (if y = x then v else t.vers y) = before y
                rw [if_neg (fun h => hy (by rw [h]; exact hxt))]
                exact k1 y hy) h
              refine ⟨l1, fun y hy => l2 y (k2 y (List.mem_cons_of_mem _ hy)), ?_⟩
              simp only [k3]
              exact l3

theorem walk_ends (e : Env α V) (before : α → V) (fuel : Nat) : ∀ (xs : List α) (s : St α V) (lg : List (Verif.Deptool.Deps.Ev α)) (w : Verif.Deptool.Deps.Walk α),
    (∀ y, y ∉ s.visited → s.vers y = before y) →
    Verif.Deptool.Deps.walk (fun x => e.depends x (before x)) fuel xs ⟨s.visited, lg⟩ = some w → walk e fuel xs s ≠ .stuck := by
  induction fuel with
  | zero =>
    intro xs s lg w hs h
    cases xs with
    | nil => exact fun h => by cases h
    | cons x xs => cases h
  | succ fuel ih =>
    intro xs s lg w hs h
    cases xs with
    | nil => exact fun h => by cases h
    | cons x xs =>
      rw [Verif.Deptool.Deps.walk] at h
      rw [walk]
      by_cases hv : x ∈ s.visited
      · rw [if_pos hv] at h
        rw [if_pos hv]
        exact ih xs s lg w hs h
      · rw [if_neg hv] at h
        rw [if_neg hv]
        cases hr : refuses e x with
        | true => exact fun h => by cases h
        | false =>
          simp only [Bool.false_eq_true, if_false]
          have hs1 : ∀ y, y ∉ x :: s.visited → s.vers y = before y := fun y hy => hs y (fun hm => hy (List.mem_cons_of_mem _ hm))
          cases hd : Verif.Deptool.Deps.walk (fun x => e.depends x (before x)) fuel (e.depends x (before x)) ⟨x :: s.visited, .pre x :: lg⟩ with
          | none => simp only [hd] at h; cases h
          | some w1 =>
            simp only [hd] at h
            have n1 := ih (e.depends x (s.vers x)) { s with visited := x :: s.visited, log := .checked x :: s.log } (.pre x :: lg) w1 hs1 (by rw [hs x hv]; exact hd)
            cases hw : walk e fuel (e.depends x (s.vers x)) { s with visited := x :: s.visited, log := .checked x :: s.log } with
            | stuck => exact absurd hw n1
            | died t => exact fun h => by cases h
            | done t =>
              simp only
              cases ha : e.arrives x with
              | none => exact fun h => by cases h
              | some v =>
                simp only
                obtain ⟨k1, k2, k3⟩ := walk_done e before fuel _ _ _ hs1 hw
                have hvis : t.visited = w1.visited := by
                  have := visited_same (fun x => e.depends x (before x)) fuel (e.depends x (before x)) (x :: s.visited) (.pre x :: lg) (.pre x :: s.log.map conv) w1 hd
                  rw [hs x hv] at k3
                  simp only [List.map_cons, conv] at k3
                  obtain ⟨w2, e2, e3⟩ := this
                  rw [k3] at e2
                  cases e2
                  exact e3
                have hxt : x ∈ t.visited := k2 x List.mem_cons_self
                refine ih xs _ (.post x :: w1.log) w (fun y hy => ?_) ?_
                · show (if y = x then v else t.vers y) = before y
                  rw [if_neg (fun h => hy (by rw [h]; exact hxt))]
                  exact k1 y hy
                · show Verif.Deptool.Deps.walk _ fuel xs ⟨t.visited, _⟩ = _
                  rw [hvis]
                  exact h
where
  visited_same (deps : α → List α) (fuel : Nat) : ∀ (xs : List α) (vis : List α) (a b : List (Verif.Deptool.Deps.Ev α)) (w : Verif.Deptool.Deps.Walk α),
      Verif.Deptool.Deps.walk deps fuel xs ⟨vis, a⟩ = some w → ∃ w', Verif.Deptool.Deps.walk deps fuel xs ⟨vis, b⟩ = some w' ∧ w'.visited = w.visited := by
    induction fuel with
    | zero =>
      intro xs vis a b w h
      cases xs with
      | nil => cases h; exact ⟨_, rfl, rfl⟩
      | cons x xs => cases h
    | succ fuel ih =>
      intro xs vis a b w h
      cases xs with
      | nil => cases h; exact ⟨_, rfl, rfl⟩
      | cons x xs =>
        rw [Verif.Deptool.Deps.walk] at h ⊢
        by_cases hv : x ∈ vis
        · simp only [hv, if_true] at h ⊢
          exact ih xs vis a b w h
        · simp only [hv, if_false] at h ⊢
          cases hd : Verif.Deptool.Deps.walk deps fuel (deps x) ⟨x :: vis, .pre x :: a⟩ with
          | none => simp only [hd] at h; cases h
          | some w1 =>
            simp only [hd] at h
            obtain ⟨w2, e2, e3⟩ := ih (deps x) (x :: vis) (.pre x :: a) (.pre x :: b) w1 hd
            simp only [e2]
            rw [e3]
            exact ih xs w1.visited _ _ w h

theorem conv_deps (deps : α → List α) (A : Prop) (hA : A) : ∀ log : List (Ev α), Ordered deps A (log.map conv) → DepsFirst deps log := by
  intro log
  induction log with
  | nil => intro _; trivial
  | cons ev log ih =>
    cases ev with
    | checked x => intro h; exact ih h.2.2
    | pulled x =>
      intro h
      exact ⟨fun d hd => (mem_post log d).1 (h.2.2.2.1 hA d hd), ih h.2.2.2.2⟩

/-! ## Which projects are pulled -/

/-- C237: however `pull` ends, every project that was pulled had been looked at before and had no changes (unless `--unsafe`), is now at the version that the merges leave, and was pulled once; every other project is as it was; only projects that the one it starts in needs are looked at. -/
theorem pull_fair (e : Env α V) (fuel : Nat) (root : α) (before : α → V) (s : St α V) (h : (pull e fuel root before).state = some s) : Fair e root before s := by
  have := walk_inv e root before fuel [root] { visited := [], vers := before, log := [] }
    ⟨⟨trivial, by simp, by simp, fun _ _ => rfl, by simp⟩, by simp, by simp⟩ (fun x hx => by rw [List.mem_singleton.1 hx]; exact .refl)
  unfold pull at h
  cases hw : walk e fuel [root] { visited := [], vers := before, log := [] } with
  | stuck => rw [hw] at h; cases h
  | died t => rw [hw] at h this; cases h; exact this.1.toFair
  | done t => rw [hw] at h this; cases h; exact this.1.toFair

/-- C237: when `pull` ends well, exactly the projects that were needed at the start have been pulled, all of them free of changes (unless `--unsafe`); and dependencies before what needs them, if there is no cycle. -/
theorem pull_all (e : Env α V) (fuel : Nat) (root : α) (before : α → V) (s : St α V) (h : pull e fuel root before = .done s) :
    (∀ x, .pulled x ∈ s.log ↔ Needs (fun x => e.depends x (before x)) root x) ∧
    (∀ x, Needs (fun x => e.depends x (before x)) root x → MayPull e x ∧ e.arrives x = some (s.vers x)) ∧
    ((∃ rank : α → Nat, ∀ x, Needs (fun x => e.depends x (before x)) root x → ∀ d ∈ e.depends x (before x), rank d < rank x) → DepsFirst (fun x => e.depends x (before x)) s.log) := by
  have hf := pull_fair e fuel root before s (by rw [h]; rfl)
  obtain ⟨_, _, hw⟩ := walk_done e before fuel [root] _ s (fun _ _ => rfl) h
  obtain ⟨o, p, q⟩ := Verif.Deptool.Deps.depWalk_order (fun x => e.depends x (before x)) fuel root ⟨s.visited, s.log.map conv⟩ hw
  have hp : ∀ x, .pulled x ∈ s.log ↔ Needs (fun x => e.depends x (before x)) root x := fun x => by rw [← mem_post]; exact p x
  refine ⟨hp, fun x hx => ⟨hf.clean x ((mem_pre _ x).1 ((q x).2 hx)), hf.arrived x ((hp x).2 hx)⟩, fun hr => conv_deps _ _ hr _ o⟩

/-- C237: `pull` dies only because of a project that is needed: it has changes and `--unsafe` was not given, or one of the commands of its pull failed; that project has not been pulled. -/
theorem pull_dies (e : Env α V) (fuel : Nat) (root : α) (before : α → V) (s : St α V) (h : pull e fuel root before = .died s) :
    ∃ x, Needs (fun x => e.depends x (before x)) root x ∧ .pulled x ∉ s.log ∧ s.vers x = before x ∧ (e.unsafePull = false ∧ e.dirty x = true ∨ MayPull e x ∧ e.arrives x = none) := by
  have hf := pull_fair e fuel root before s (by rw [h]; rfl)
  have := walk_inv e root before fuel [root] { visited := [], vers := before, log := [] }
    ⟨⟨trivial, by simp, by simp, fun _ _ => rfl, by simp⟩, by simp, by simp⟩ (fun x hx => by rw [List.mem_singleton.1 hx]; exact .refl)
  unfold pull at h
  rw [h] at this
  obtain ⟨_, x, hn, hp, hw⟩ := this
  refine ⟨x, hn, hp, hf.kept x hp, ?_⟩
  rcases hw with ⟨hm, _⟩ | ⟨hc, ha⟩
  · left
    unfold MayPull at hm
    cases h1 : e.unsafePull with
    | true => exact absurd (.inl h1) hm
    | false =>
      cases h2 : e.dirty x with
      | false => exact absurd (.inr h2) hm
      | true => exact ⟨rfl, rfl⟩
  · exact .inr ⟨hf.clean x hc, ha⟩

/-- C237: with finitely many projects `pull` ends, and it ends well if all projects that are needed may be pulled and their merges work. -/
theorem pull_ends (e : Env α V) (root : α) (before : α → V) (P : List α) (hr : root ∈ P) (hP : ∀ x ∈ P, ∀ d ∈ e.depends x (before x), d ∈ P) :
    ∃ fuel, (∃ s, (pull e fuel root before).state = some s) ∧
      ((∀ x, Needs (fun x => e.depends x (before x)) root x → MayPull e x ∧ e.arrives x ≠ none) → ∃ s, pull e fuel root before = .done s) := by
  obtain ⟨fuel, w, hw⟩ := Verif.Deptool.Deps.depWalk_ends (fun x => e.depends x (before x)) root P hr hP
  have hn := walk_ends e before fuel [root] { visited := [], vers := before, log := [] } [] w (fun _ _ => rfl) hw
  refine ⟨fuel, ?_, fun hall => ?_⟩
  · cases h : pull e fuel root before with
    | stuck => exact absurd h hn
    | died s => exact ⟨s, rfl⟩
    | done s => exact ⟨s, rfl⟩
  · cases h : pull e fuel root before with
    | stuck => exact absurd h hn
    | done s => exact ⟨s, rfl⟩
    | died s =>
      obtain ⟨x, hx, _, _, hw⟩ := pull_dies e fuel root before s h
      rcases hw with ⟨h1, h2⟩ | ⟨_, h3⟩
      · rcases (hall x hx).1 with h | h
        · rw [h1] at h; cases h
        · rw [h2] at h; cases h
      · exact absurd h3 (hall x hx).2

end

/-- Project 0 needs 1 and 2; 1 and 2 need nothing. -/
def deps3 : Nat → Nat → List Nat
  | 0, _ => [1, 2]
  | _, _ => []

/-- C237, false of the code: that nothing is pulled if there are changes somewhere. The changes in 2 are found after 1 was pulled. -/
theorem pull_first_false : ∃ (e : Env Nat Nat) (fuel : Nat) (s : St Nat Nat), e.unsafePull = false ∧ e.dirty 2 = true ∧ Needs (fun x => e.depends x 0) 0 2 ∧
    pull e fuel 0 (fun _ => 0) = .died s ∧ .pulled 1 ∈ s.log ∧ s.vers 1 ≠ 0 := by
  refine ⟨⟨false, fun x => x == 2, deps3, fun _ => some 1⟩, 4, _, rfl, rfl, .step 0 2 .refl (by decide), rfl, by decide, by decide⟩

/-- Version 1 of project 0 needs project 1; version 0 needs nothing. -/
def depsNew : Nat → Nat → List Nat
  | 0, 1 => [1]
  | _, _ => []

/-- C237, false of the code (and among the known bugs in the manual, lines 5530-5533): that after a pull that ended well all projects that are needed now are up to date. -/
theorem pull_new_false : ∃ (e : Env Nat Nat) (fuel : Nat) (s : St Nat Nat), pull e fuel 0 (fun _ => 0) = .done s ∧
    Needs (fun x => e.depends x (s.vers x)) 0 1 ∧ .pulled 1 ∉ s.log ∧ e.arrives 1 ≠ some (s.vers 1) := by
  refine ⟨⟨false, fun _ => false, depsNew, fun _ => some 1⟩, 3, _, rfl, .step 0 1 .refl (by decide), by decide, by decide⟩

/-- A pull that ends well. -/
example : ∃ s, pull ⟨false, fun _ => false, deps3, fun _ => some 1⟩ 4 0 (fun _ => 0) = .done s ∧ s.log.reverse = [.checked 0, .checked 1, .pulled 1, .checked 2, .pulled 2, .pulled 0] := ⟨_, rfl, by decide⟩

/-! ## Which branches are merged -/

/-- A name of a branch: not empty and without white space. -/
def Name (t : Text) : Prop := t ≠ [] ∧ ∀ c ∈ t, c ≠ ' ' ∧ c ≠ '\t' ∧ c ≠ '\n' ∧ c ≠ '\r' ∧ c ≠ '\x0c' ∧ c ≠ '\x0b'

/-- How git prints the entries. -/
def print : Text × Info → Text
  | (b, .current) => '*' :: ' ' :: b
  | (b, .plain) => ' ' :: ' ' :: b
  | (b, .reference r) => ' ' :: ' ' :: (b ++ (' ' :: '-' :: '>' :: ' ' :: r))

/-- Entries that git can print. -/
def Entry : Text × Info → Prop
  | (b, .reference r) => Name b ∧ Name r
  | (b, _) => Name b

theorem space_false (c : Char) (h : c ≠ ' ' ∧ c ≠ '\t' ∧ c ≠ '\n' ∧ c ≠ '\r' ∧ c ≠ '\x0c' ∧ c ≠ '\x0b') : isSpace c = false := by
  simp [isSpace, h]

theorem solid_of (t : Text) (h : Name t) : solid t = true := by
  obtain ⟨h0, h1⟩ := h
  cases t with
  | nil => exact absurd rfl h0
  | cons c t =>
    simp only [solid, List.isEmpty_cons, Bool.not_false, Bool.true_and, List.all_eq_true]
    intro d hd
    rw [space_false d (h1 d hd)]
    rfl

theorem solid_space (a b : Text) : solid (a ++ ' ' :: b) = false := by
  unfold solid
  rw [List.all_append, List.all_cons]
  simp [isSpace]

theorem takeWhile_name (t r : Text) (h : ∀ c ∈ t, isSpace c = false) : (t ++ ' ' :: r).takeWhile (fun c => !isSpace c) = t ∧ (t ++ ' ' :: r).dropWhile (fun c => !isSpace c) = ' ' :: r := by
  induction t with
  | nil => exact ⟨rfl, rfl⟩
  | cons c t ih =>
    have hc := h c List.mem_cons_self
    obtain ⟨i1, i2⟩ := ih (fun d hd => h d (List.mem_cons_of_mem _ hd))
    simp only [List.cons_append, List.takeWhile_cons, List.dropWhile_cons, hc, Bool.not_false, if_true, i1, i2, and_self]

theorem branchLine_print (b : Text × Info) (h : Entry b) : branchLine (print b) = some b := by
  obtain ⟨n, i⟩ := b
  cases i with
  | current => simp only [print, branchLine, solid_of n h, if_true]
  | plain => simp only [print, branchLine, solid_of n h, if_true]
  | reference r =>
    obtain ⟨hn, hr⟩ := h
    have hsp : ∀ c ∈ n, isSpace c = false := fun c hc => space_false c (hn.2 c hc)
    obtain ⟨t1, t2⟩ := takeWhile_name n ('-' :: '>' :: ' ' :: r) hsp
    have ha : arrow (n ++ (' ' :: '-' :: '>' :: ' ' :: r)) = some (n, r) := by
      unfold arrow
      rw [t2, t1]
      simp only [solid_of n hn, solid_of r hr, Bool.and_self, if_true]
    simp only [print, branchLine, solid_space, ha, Bool.false_eq_true, if_false]

theorem allBranches_print (bs : List (Text × Info)) (table : List (Text × Info)) (h : ∀ b ∈ bs, Entry b) (hn : ((table ++ bs).map (·.1)).Nodup) :
    allBranches (bs.map print) table = some (table ++ bs) := by
  induction bs generalizing table with
  | nil => simp [allBranches]
  | cons b bs ih =>
    rw [List.map_cons, allBranches, branchLine_print b (h b List.mem_cons_self)]
    simp only
    have hno : table.any (fun e => e.1 = b.1) = false := by
      rw [Bool.eq_false_iff]
      intro ht
      obtain ⟨e, he, hb⟩ := List.any_eq_true.1 ht
      rw [List.map_append, List.nodup_append] at hn
      exact hn.2.2 e.1 (List.mem_map.2 ⟨e, he, rfl⟩) b.1 (by simp) (by simpa using hb)
    rw [hno]
    simp only [Bool.false_eq_true, if_false]
    rw [ih (table ++ [b]) (fun x hx => h x (List.mem_cons_of_mem _ hx)) (by simpa using hn)]
    simp

/-- C237: from what git prints, all branches are read back. -/
theorem branches_read (bs : List (Text × Info)) (h : ∀ b ∈ bs, Entry b) (hn : (bs.map (·.1)).Nodup) : allBranches (bs.map print) [] = some bs := by
  rw [allBranches_print bs [] h (by simpa using hn)]
  rfl

/-- The branch of the same name of a remote repository, by the letters. -/
def OfOrigin (cur : Text) : Text := ['r', 'e', 'm', 'o', 't', 'e', 's', '/', 'o', 'r', 'i', 'g', 'i', 'n', '/'] ++ cur
/-- As before, for the local cache. -/
def OfCache (cur : Text) : Text := ['r', 'e', 'm', 'o', 't', 'e', 's', '/', 'l', 'o', 'c', 'a', 'l', '-', 'c', 'a', 'c', 'h', 'e', '/'] ++ cur

/-- C237: if git prints distinct branches, one of them current, `pull` merges the branch of that name of `origin` and then the one of the local cache, each if there is one, and nothing else. -/
theorem merges_partial (bs : List (Text × Info)) (h : ∀ b ∈ bs, Entry b) (hn : (bs.map (·.1)).Nodup) (cur : Text) (hc : ∀ b ∈ bs, b.2 = .current ↔ b.1 = cur) (hm : cur ∈ bs.map (·.1)) :
    ∃ ms, toMerge (bs.map print) = some ms ∧ ms.Sublist [OfOrigin cur, OfCache cur] ∧
      (OfOrigin cur ∈ ms ↔ OfOrigin cur ∈ bs.map (·.1)) ∧ (OfCache cur ∈ ms ↔ OfCache cur ∈ bs.map (·.1)) := by
  have hcur : currentBranch bs = some cur := by
    unfold currentBranch
    have : ∀ (l : List (Text × Info)), (∀ b ∈ l, b.2 = .current ↔ b.1 = cur) → (l.map (·.1)).Nodup → cur ∈ l.map (·.1) → ∃ e, l.filter (fun e => e.2 = .current) = [e] ∧ e.1 = cur := by
      intro l
      induction l with
      | nil => intro _ _ h; cases h
      | cons b l ih =>
        intro hc hn hm
        by_cases hb : b.2 = .current
        · refine ⟨b, ?_, (hc b List.mem_cons_self).1 hb⟩
          rw [List.filter_cons, if_pos (by simpa using hb)]
          congr 1
          rw [List.filter_eq_nil_iff]
          intro x hx hxc
          have e1 := (hc x (List.mem_cons_of_mem _ hx)).1 (by simpa using hxc)
          have e2 := (hc b List.mem_cons_self).1 hb
          rw [List.map_cons, List.nodup_cons] at hn
          exact hn.1 (List.mem_map.2 ⟨x, hx, by rw [e1, e2]⟩)
        · rw [List.filter_cons, if_neg (by simpa using hb)]
          refine ih (fun x hx => hc x (List.mem_cons_of_mem _ hx)) (List.nodup_cons.1 hn).2 ?_
          rcases List.mem_cons.1 hm with e | hm
          · exact absurd ((hc b List.mem_cons_self).2 e.symm) hb
          · exact hm
    obtain ⟨e, he, e1⟩ := this bs hc hn hm
    rw [he]
    simp only [e1]
  have hin : ∀ b : Text, bs.any (fun e => e.1 = b) = true ↔ b ∈ bs.map (·.1) := by
    intro b
    simp only [List.any_eq_true, decide_eq_true_eq, List.mem_map]
  have hms : toMerge (bs.map print) = some ([OfOrigin cur, OfCache cur].filter (fun b => bs.any (fun e => e.1 = b))) := by
    unfold toMerge
    rw [branches_read bs h hn]
    simp only [hcur]
    rfl
  refine ⟨_, hms, List.filter_sublist, ?_, ?_⟩
  · rw [List.mem_filter, hin]
    simp
  · rw [List.mem_filter, hin]
    simp

theorem allBranches_dies (ls : List Text) (l : Text) (hl : l ∈ ls) (h : branchLine l = none) : ∀ table, allBranches ls table = none := by
  induction ls with
  | nil => cases hl
  | cons x ls ih =>
    intro table
    rw [allBranches]
    rcases List.mem_cons.1 hl with e | hl
    · rw [← e, h]
    · cases branchLine x with
      | none => rfl
      | some p =>
        simp only
        by_cases ht : table.any (fun e => e.1 = p.1) = true
        · rw [if_pos ht]
        · rw [if_neg ht]; exact ih hl _

/-- C237, false of the code: that `pull` works with any head and any working trees. With a head that is not on a branch (git prints a text with blanks in parentheses), and with a branch that is checked out elsewhere (git prints `+`), it dies after the fetch, whatever else is printed. -/
theorem detached_false (ls : List Text) (t : Text) (h : ('*' :: ' ' :: t) ∈ ls ∧ ' ' ∈ t ∨ ('+' :: t) ∈ ls) : toMerge ls = none := by
  have : allBranches ls [] = none := by
    rcases h with ⟨h, hb⟩ | h
    · refine allBranches_dies ls _ h ?_ []
      obtain ⟨a, b, e⟩ := List.append_of_mem hb
      simp only [branchLine, e, solid_space, Bool.false_eq_true, if_false]
    · exact allBranches_dies ls _ h rfl []
  unfold toMerge
  rw [this]

/-- C237, false of the code: that distinct branches are told apart. A local branch may be called `remotes/origin/a`; if there is an `a` at the origin too, git prints the same line for both, and `pull` dies. -/
theorem named_false : ∃ bs : List (Text × Info), (∀ b ∈ bs, Entry b) ∧ (bs.filter (fun b => b.2 = .current)).length = 1 ∧ OfOrigin ['a'] ∈ bs.map (·.1) ∧ toMerge (bs.map print) = none := by
  refine ⟨[(['a'], .current), (OfOrigin ['a'], .plain), (OfOrigin ['a'], .plain)], ?_, by decide, by decide, by decide⟩
  intro b hb
  have : b = (['a'], .current) ∨ b = (OfOrigin ['a'], .plain) := by simpa using hb
  rcases this with e | e <;> subst e
  · exact ⟨by decide, by decide⟩
  · exact ⟨by decide, by decide⟩

/-- Two branches at the origin, and the reference that a clone has. -/
example : toMerge ([(['a'], .current), (['b'], .plain), (OfOrigin ['H'], .reference ['o', '/', 'a']), (OfOrigin ['a'], .plain), (OfOrigin ['b'], .plain)].map print) = some [OfOrigin ['a']] := by decide

end Verif.DepVC.Pull
