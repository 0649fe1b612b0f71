import Verif.Deptool.Build

/-!
# The parallel build: specification on logs, and the invariant
-/

namespace Verif.Deptool

/-! ## Specification -/

/-- The step of this kind has been done for the directory. -/
def Done (log : List Ev) (n : Node) (k : Kind) : Prop := .upToDate k n ∈ log ∨ .finish k n true ∈ log

/-- Nothing has failed. -/
def AllWell (log : List Ev) : Prop := ∀ k n, .finish k n false ∉ log

/-- The directory for which a process of this kind is running. -/
def active (log : List Ev) (k : Kind) : Option Node :=
  match log with
  | [] => none
  | .start j n :: log => if j = k then some n else active log k
  | .finish j _ _ :: log => if j = k then none else active log k
  | .upToDate _ _ :: log => active log k

/-- The step has not been looked at. -/
def Untouched (log : List Ev) (n : Node) (k : Kind) : Prop := .start k n ∉ log ∧ .upToDate k n ∉ log

/-- What a directory needs from other sources. -/
def Graph.others (g : Graph) (n : Node) : List Node := (g.deps n).filter fun d => g.src d ≠ g.src n

/-- A build may begin when all other sources it needs are installed, installing and testing when the build is done. -/
def Ready (g : Graph) (log : List Ev) (n : Node) : Kind → Prop
  | .build => ∀ d ∈ g.others n, Done log d .install
  | _ => Done log n .build

/-- What may happen, in this order. -/
def Legal (g : Graph) : List Ev → Prop
  | [] => True
  | .start k n :: log => AllWell log ∧ active log k = none ∧ Untouched log n k ∧ Ready g log n k ∧ Legal g log
  | .upToDate k n :: log => AllWell log ∧ Untouched log n k ∧ Ready g log n k ∧ Legal g log
  | .finish k n _ :: log => .start k n ∈ log ∧ .finish k n true ∉ log ∧ Legal g log

/-- The kinds of steps that are to be done. -/
def Wanted (tests : Bool) (k : Kind) : Prop := k = .test → tests = true

def Out.st : Out → St
  | .more s | .returned s | .failed s | .stuck s | .internal s => s

/-! ## Invariant -/

structure Inv (g : Graph) (nodes : List Node) (tests : Bool) (s : St) : Prop where
  pw : ∀ n k, (n, k) ∈ s.pending → n ∈ nodes ∧ Wanted tests k
  nodup : s.pending.Nodup
  cover : ∀ n k, n ∈ nodes → Wanted tests k → (n, k) ∈ s.pending ∨ s.running k = some n ∨ s.done n k = true
  exD : ∀ n k, s.done n k = true → (n, k) ∉ s.pending ∧ s.running k ≠ some n
  exR : ∀ n k, s.running k = some n → (n, k) ∉ s.pending
  runB : ∀ n, s.running .build = some n → ∀ d ∈ g.others n, s.done d .install = true
  runO : ∀ n k, s.running k = some n → k ≠ .build → s.done n .build = true
  doneB : ∀ n, s.done n .build = true → ∀ d ∈ g.others n, s.done d .install = true
  doneO : ∀ n k, s.done n k = true → s.done n .build = true
  le : ∀ n k, s.stamp n k ≤ s.last
  stB : ∀ n, s.done n .build = true → 0 < s.stamp n .build ∧ ∀ d ∈ g.others n, s.stamp d .install < s.stamp n .build
  stK : ∀ n k, s.done n k = true → k ≠ .build → s.stamp n .build < s.stamp n k
  logD : ∀ n k, s.done n k = true ↔ Done s.log n k
  logP : ∀ n k, (n, k) ∈ s.pending → Untouched s.log n k
  logR : ∀ n k, s.running k = some n → .start k n ∈ s.log
  well : s.ok = true → AllWell s.log
  act : s.ok = true → ∀ k, active s.log k = s.running k
  failR : s.ok = false → ∃ k n, s.running k = some n ∧ s.exited k = some false ∧ .finish k n false ∈ s.log
  legal : Legal g s.log

theorem awaited_eq (g : Graph) (n : Node) : g.awaited n = g.others n := rfl

theorem others_src {g : Graph} {n d : Node} (h : d ∈ g.others n) : g.src d ≠ g.src n := by
  unfold Graph.others at h
  simpa using (List.mem_filter.1 h).2

theorem others_ne {g : Graph} {n d : Node} (h : d ∈ g.others n) : d ≠ n := by
  intro e
  exact others_src h (by rw [e])

variable {g : Graph} {nodes : List Node} {tests : Bool} {s : St}

theorem depsInstalled_iff (n : Node) : depsInstalled g s n = true ↔ ∀ d ∈ g.others n, s.done d .install = true := by
  simp [depsInstalled, awaited_eq]

theorem outOfDate_false (n : Node) (hd : ∀ d ∈ g.others n, s.done d .install = true) :
    outOfDate g s n = false ↔ 0 < s.stamp n .build ∧ ∀ d ∈ g.others n, s.stamp d .install < s.stamp n .build := by
  simp only [outOfDate, Bool.or_eq_false_iff, decide_eq_false_iff_not, List.any_eq_false, Bool.and_eq_true, decide_eq_true_eq, not_and, Nat.not_le]
  constructor
  · rintro ⟨h1, h2⟩
    exact ⟨by omega, fun d hd' => h2 d hd' (hd d hd')⟩
  · rintro ⟨h1, h2⟩
    exact ⟨by omega, fun d hd' _ => h2 d hd'⟩

theorem mem_erase_iff {l : List (Node × Kind)} (h : l.Nodup) (x y : Node × Kind) : y ∈ l.erase x ↔ y ≠ x ∧ y ∈ l :=
  List.Nodup.mem_erase_iff h

theorem done_cons_start (log : List Ev) (j : Kind) (m : Node) (n : Node) (k : Kind) : Done (.start j m :: log) n k ↔ Done log n k := by
  simp [Done]

theorem done_cons_upToDate (log : List Ev) (j : Kind) (m : Node) (n : Node) (k : Kind) : Done (.upToDate j m :: log) n k ↔ (n = m ∧ k = j) ∨ Done log n k := by
  simp only [Done, List.mem_cons, Ev.upToDate.injEq, reduceCtorEq, false_or]
  constructor
  · rintro ((⟨rfl, rfl⟩ | h) | h)
    · exact Or.inl ⟨rfl, rfl⟩
    · exact Or.inr (Or.inl h)
    · exact Or.inr (Or.inr h)
  · rintro (⟨rfl, rfl⟩ | h | h)
    · exact Or.inl (Or.inl ⟨rfl, rfl⟩)
    · exact Or.inl (Or.inr h)
    · exact Or.inr h

theorem done_cons_finish (log : List Ev) (j : Kind) (m : Node) (b : Bool) (n : Node) (k : Kind) : Done (.finish j m b :: log) n k ↔ (b = true ∧ n = m ∧ k = j) ∨ Done log n k := by
  simp only [Done, List.mem_cons, Ev.finish.injEq, reduceCtorEq, false_or]
  constructor
  · rintro (h | ⟨rfl, rfl, rfl⟩ | h)
    · exact Or.inr (Or.inl h)
    · exact Or.inl ⟨rfl, rfl, rfl⟩
    · exact Or.inr (Or.inr h)
  · rintro (⟨rfl, rfl, rfl⟩ | h | h)
    · exact Or.inr (Or.inl ⟨rfl, rfl, rfl⟩)
    · exact Or.inl h
    · exact Or.inr (Or.inr h)

theorem ready_start (log : List Ev) (j : Kind) (m : Node) (n : Node) (k : Kind) : Ready g (.start j m :: log) n k ↔ Ready g log n k := by
  cases k <;> simp [Ready, done_cons_start]

set_option maxHeartbeats 2000000 in
/-- Starting a process. -/
theorem inv_start (h : Inv g nodes tests s) (n : Node) (k : Kind) (hok : s.ok = true) (hm : (n, k) ∈ s.pending) (hr : s.running k = none)
    (hrdy : (k = .build → ∀ d ∈ g.others n, s.done d .install = true) ∧ (k ≠ .build → s.done n .build = true)) (st : Node → Kind → Nat)
    (hst : st = s.stamp ∨ (k = .build ∧ st = set2 s.stamp n .build 0)) :
    Inv g nodes tests { s with pending := s.pending.erase (n, k), stamp := st, running := set s.running k (some n), exited := set s.exited k none, log := .start k n :: s.log } := by
  have hme := mem_erase_iff h.nodup (n, k)
  have hnd : s.done n k = false := by
    cases hd : s.done n k with
    | false => rfl
    | true => exact absurd hm (h.exD n k hd).1
  have hstamp : ∀ m j, s.done m j = true ∨ s.done m .build = true → st m .build = s.stamp m .build ∧ ∀ i, i ≠ .build → st m i = s.stamp m i := by
    intro m j hd
    have hb : s.done m .build = true := by
      rcases hd with hd | hd
      · exact h.doneO m j hd
      · exact hd
    rcases hst with rfl | ⟨rfl, rfl⟩
    · exact ⟨rfl, fun _ _ => rfl⟩
    · have : m ≠ n := by rintro rfl; rw [hnd] at hb; cases hb
      simp [set2, this]
  have hstI : ∀ m, st m .install = s.stamp m .install := by
    intro m
    rcases hst with rfl | ⟨rfl, rfl⟩
    · rfl
    · simp [set2]
  constructor
  · intro m j hmj
    exact h.pw m j ((hme (m, j)).1 hmj).2
  · exact h.nodup.erase _
  · intro m j hmn hw
    simp only [set]
    rcases h.cover m j hmn hw with hp | hp | hp
    · by_cases e : (m, j) = (n, k)
      · cases e; right; left; simp
      · left; exact (hme (m, j)).2 ⟨e, hp⟩
    · right; left
      by_cases e : j = k
      · subst e; rw [hr] at hp; cases hp
      · simp [e, hp]
    · exact Or.inr (Or.inr hp)
  · intro m j hd
    have := h.exD m j hd
    refine ⟨fun hp => this.1 ((hme _).1 hp).2, ?_⟩
    simp only [set]
    by_cases e : j = k
    · subst e
      simp only [if_true]
      intro e'; cases e'
      have hd' : s.done n j = true := hd
      rw [hnd] at hd'; cases hd'
    · simp only [e, if_false]; exact this.2
  · intro m j hrj hp
    have hp' := (hme _).1 hp
    simp only [set] at hrj
    by_cases e : j = k
    · subst e
      simp only [if_true, Option.some.injEq] at hrj
      subst hrj
      exact hp'.1 rfl
    · simp only [e, if_false] at hrj
      exact h.exR m j hrj hp'.2
  · intro m hrj d hd
    simp only [set] at hrj
    by_cases e : Kind.build = k
    · simp only [e, if_true, Option.some.injEq] at hrj
      subst hrj
      exact hrdy.1 e.symm d hd
    · simp only [e, if_false] at hrj
      exact h.runB m hrj d hd
  · intro m j hrj hj
    simp only [set] at hrj
    by_cases e : j = k
    · subst e
      simp only [if_true, Option.some.injEq] at hrj
      subst hrj
      exact hrdy.2 hj
    · simp only [e, if_false] at hrj
      exact h.runO m j hrj hj
  · exact h.doneB
  · exact h.doneO
  · intro m j
    rcases hst with rfl | ⟨rfl, rfl⟩
    · exact h.le m j
    · show set2 s.stamp n .build 0 m j ≤ s.last
      simp only [set2]
      split
      · omega
      · exact h.le m j
  · intro m hd
    have hd : s.done m .build = true := hd
    have e := (hstamp m .build (Or.inl hd)).1
    have := h.stB m hd
    refine ⟨by show 0 < st m .build; rw [e]; exact this.1, ?_⟩
    intro d hdd
    show st d .install < st m .build
    rw [e, hstI d]
    exact this.2 d hdd
  · intro m j hd hj
    have hd : s.done m j = true := hd
    have e := hstamp m j (Or.inl hd)
    show st m .build < st m j
    rw [e.1, e.2 j hj]
    exact h.stK m j hd hj
  · intro m j
    rw [done_cons_start]
    exact h.logD m j
  · intro m j hp
    have hp' := (hme _).1 hp
    have := h.logP m j hp'.2
    refine ⟨?_, ?_⟩
    · simp only [List.mem_cons, Ev.start.injEq, not_or]
      refine ⟨?_, this.1⟩
      rintro ⟨rfl, rfl⟩
      exact hp'.1 rfl
    · simp only [List.mem_cons, reduceCtorEq, false_or]
      exact this.2
  · intro m j hrj
    simp only [set] at hrj
    by_cases e : j = k
    · subst e
      simp only [if_true, Option.some.injEq] at hrj
      subst hrj
      simp
    · simp only [e, if_false] at hrj
      exact List.mem_cons_of_mem _ (h.logR m j hrj)
  · intro _ j m hf
    simp only [List.mem_cons, reduceCtorEq, false_or] at hf
    exact h.well hok j m hf
  · intro _ j
    simp only [active, set]
    by_cases e : k = j
    · subst e; simp
    · have e' : j ≠ k := fun x => e x.symm
      simp only [e, e', if_false]
      exact h.act hok j
  · intro hf
    have hf : s.ok = false := hf
    rw [hok] at hf; cases hf
  · refine ⟨h.well hok, ?_, h.logP n k hm, ?_, h.legal⟩
    · rw [h.act hok k]; exact hr
    · cases k with
      | build => exact fun d hd => (h.logD d .install).1 (hrdy.1 rfl d hd)
      | install => exact (h.logD n .build).1 (hrdy.2 (by decide))
      | test => exact (h.logD n .build).1 (hrdy.2 (by decide))

/-- A step that is up to date. -/
theorem inv_upToDate (h : Inv g nodes tests s) (n : Node) (k : Kind) (hok : s.ok = true) (hm : (n, k) ∈ s.pending) (hr : s.running k = none)
    (hrdy : (k = .build → ∀ d ∈ g.others n, s.done d .install = true) ∧ (k ≠ .build → s.done n .build = true))
    (hstB : k = .build → 0 < s.stamp n .build ∧ ∀ d ∈ g.others n, s.stamp d .install < s.stamp n .build)
    (hstK : k ≠ .build → s.stamp n .build < s.stamp n k) :
    Inv g nodes tests { s with pending := s.pending.erase (n, k), done := set2 s.done n k true, log := .upToDate k n :: s.log } := by
  have hme := mem_erase_iff h.nodup (n, k)
  have hdone : ∀ m j, set2 s.done n k true m j = true ↔ (m = n ∧ j = k) ∨ s.done m j = true := by
    intro m j
    simp only [set2]
    split
    · rename_i e; simp [e]
    · rename_i e; simp [e]
  constructor
  · intro m j hmj
    exact h.pw m j ((hme (m, j)).1 hmj).2
  · exact h.nodup.erase _
  · intro m j hmn hw
    show (m, j) ∈ s.pending.erase (n, k) ∨ s.running j = some m ∨ set2 s.done n k true m j = true
    rw [hdone]
    rcases h.cover m j hmn hw with hp | hp | hp
    · by_cases e : (m, j) = (n, k)
      · cases e; right; right; left; exact ⟨rfl, rfl⟩
      · left; exact (hme (m, j)).2 ⟨e, hp⟩
    · exact Or.inr (Or.inl hp)
    · exact Or.inr (Or.inr (Or.inr hp))
  · intro m j hd
    rcases (hdone m j).1 hd with ⟨rfl, rfl⟩ | hd
    · refine ⟨fun hp => ((hme _).1 hp).1 rfl, ?_⟩
      show s.running j ≠ some m
      rw [hr]; simp
    · have := h.exD m j hd
      exact ⟨fun hp => this.1 ((hme _).1 hp).2, this.2⟩
  · intro m j hrj hp
    exact h.exR m j hrj ((hme _).1 hp).2
  · intro m hrj d hd
    exact (hdone d .install).2 (Or.inr (h.runB m hrj d hd))
  · intro m j hrj hj
    exact (hdone m .build).2 (Or.inr (h.runO m j hrj hj))
  · intro m hd d hdd
    refine (hdone d .install).2 (Or.inr ?_)
    rcases (hdone m .build).1 hd with ⟨rfl, e⟩ | hd
    · exact hrdy.1 e.symm d hdd
    · exact h.doneB m hd d hdd
  · intro m j hd
    refine (hdone m .build).2 ?_
    rcases (hdone m j).1 hd with ⟨rfl, rfl⟩ | hd
    · by_cases e : j = .build
      · exact Or.inl ⟨rfl, e.symm⟩
      · exact Or.inr (hrdy.2 e)
    · exact Or.inr (h.doneO m j hd)
  · exact h.le
  · intro m hd
    rcases (hdone m .build).1 hd with ⟨rfl, e⟩ | hd
    · exact hstB e.symm
    · exact h.stB m hd
  · intro m j hd hj
    rcases (hdone m j).1 hd with ⟨rfl, rfl⟩ | hd
    · exact hstK hj
    · exact h.stK m j hd hj
  · intro m j
    rw [done_cons_upToDate]
    show set2 s.done n k true m j = true ↔ _
    rw [hdone, h.logD m j]
  · intro m j hp
    have hp' := (hme _).1 hp
    have := h.logP m j hp'.2
    refine ⟨?_, ?_⟩
    · simp only [List.mem_cons, reduceCtorEq, false_or]
      exact this.1
    · simp only [List.mem_cons, Ev.upToDate.injEq, not_or]
      refine ⟨?_, this.2⟩
      rintro ⟨rfl, rfl⟩
      exact hp'.1 rfl
  · intro m j hrj
    exact List.mem_cons_of_mem _ (h.logR m j hrj)
  · intro _ j m hf
    simp only [List.mem_cons, reduceCtorEq, false_or] at hf
    exact h.well hok j m hf
  · intro _ j
    simp only [active]
    exact h.act hok j
  · intro hf
    exact absurd (hok.symm.trans hf) (by decide)
  · refine ⟨h.well hok, h.logP n k hm, ?_, h.legal⟩
    cases k with
    | build => exact fun d hd => (h.logD d .install).1 (hrdy.1 rfl d hd)
    | install => exact (h.logD n .build).1 (hrdy.2 (by decide))
    | test => exact (h.logD n .build).1 (hrdy.2 (by decide))

/-- What `Inv` says does not depend on `prev`, nor (but for failures) on what has been reaped. -/
theorem inv_prev (h : Inv g nodes tests s) (p : Nat) : Inv g nodes tests { s with prev := p } :=
  ⟨h.pw, h.nodup, h.cover, h.exD, h.exR, h.runB, h.runO, h.doneB, h.doneO, h.le, h.stB, h.stK, h.logD, h.logP, h.logR, h.well, h.act, h.failR, h.legal⟩

theorem inv_wait (h : Inv g nodes tests s) (r : Kind → Option Bool) : Inv g nodes tests (wait s r) := by
  refine ⟨h.pw, h.nodup, h.cover, h.exD, h.exR, h.runB, h.runO, h.doneB, h.doneO, h.le, h.stB, h.stK, h.logD, h.logP, h.logR, h.well, h.act, ?_, h.legal⟩
  intro hf
  obtain ⟨k, n, h1, h2, h3⟩ := h.failR hf
  refine ⟨k, n, h1, ?_, h3⟩
  simp [wait, alive, h2]

theorem inv_startBuild (h : Inv g nodes tests s) (hok : s.ok = true) (hr : s.running .build = none) (newer : Node → Bool) : Inv g nodes tests (startBuild g newer s) := by
  unfold startBuild
  cases hf : s.pending.find? fun x => decide (x.2 = .build) && depsInstalled g s x.1 with
  | none => exact h
  | some x =>
    obtain ⟨n, k⟩ := x
    have hm := List.mem_of_find?_eq_some hf
    have hp := List.find?_some hf
    simp only [Bool.and_eq_true, decide_eq_true_eq] at hp
    obtain ⟨rfl, hp⟩ := hp
    have hd := (depsInstalled_iff (g := g) (s := s) n).1 hp
    simp only []
    split
    · exact inv_start h n .build hok hm hr ⟨fun _ => hd, fun e => absurd rfl e⟩ _ (Or.inr ⟨rfl, rfl⟩)
    · rename_i ho
      simp only [Bool.or_eq_true, not_or, Bool.not_eq_true] at ho
      have ho1 : outOfDate g s n = false := ho.1
      exact inv_upToDate h n .build hok hm hr ⟨fun _ => hd, fun e => absurd rfl e⟩ (fun _ => (outOfDate_false n hd).1 ho1) (fun e => absurd rfl e)

theorem inv_startWhich (h : Inv g nodes tests s) (k : Kind) (hk : k ≠ .build) (hok : s.ok = true) (hr : s.running k = none) : Inv g nodes tests (startWhich k s) := by
  unfold startWhich
  cases hf : s.pending.find? fun x => decide (x.2 = k) && s.done x.1 .build with
  | none => exact h
  | some x =>
    obtain ⟨n, j⟩ := x
    have hm := List.mem_of_find?_eq_some hf
    have hp := List.find?_some hf
    simp only [Bool.and_eq_true, decide_eq_true_eq] at hp
    obtain ⟨rfl, hp⟩ := hp
    simp only []
    split
    · exact inv_start h n j hok hm hr ⟨fun e => absurd e hk, fun _ => hp⟩ _ (Or.inl rfl)
    · rename_i ho
      exact inv_upToDate h n j hok hm hr ⟨fun e => absurd e hk, fun _ => hp⟩ (fun e => absurd e hk) (fun _ => by omega)

set_option maxHeartbeats 2000000 in
/-- The end of a process. -/
theorem inv_finish (h : Inv g nodes tests s) (k : Kind) (later : Nat) :
    Inv g nodes tests (finish g k later s).1 ∧ (finish g k later s).2 = true := by
  unfold finish
  cases hr : s.running k with
  | none => exact ⟨h, rfl⟩
  | some n =>
    cases he : s.exited k with
    | none => exact ⟨h, rfl⟩
    | some b =>
      cases b with
      | false =>
        simp only []
        refine ⟨⟨h.pw, h.nodup, h.cover, h.exD, h.exR, h.runB, h.runO, h.doneB, h.doneO, h.le, h.stB, h.stK, ?_, ?_, ?_, ?_, ?_, ?_, ?_⟩, trivial⟩
        · intro m j
          rw [done_cons_finish]
          simp only [Bool.false_eq_true, false_and, false_or]
          exact h.logD m j
        · intro m j hp
          have := h.logP m j hp
          simpa [Untouched] using this
        · intro m j hrj
          exact List.mem_cons_of_mem _ (h.logR m j hrj)
        · intro hf; cases hf
        · intro hf; cases hf
        · intro _; exact ⟨k, n, hr, he, List.mem_cons_self⟩
        · refine ⟨h.logR n k hr, ?_, h.legal⟩
          intro hf
          exact (h.exD n k ((h.logD n k).2 (Or.inr hf))).2 hr
      | true =>
        simp only [stampNow]
        have hnd : s.done n k = false := by
          cases hd : s.done n k with
          | false => rfl
          | true => exact absurd hr (h.exD n k hd).2
        have hdone : ∀ m j, set2 s.done n k true m j = true ↔ (m = n ∧ j = k) ∨ s.done m j = true := by
          intro m j
          simp only [set2]
          split
          · rename_i e; simp [e]
          · rename_i e; simp [e]
        have hrun : ∀ j, set s.running k none j = if j = k then none else s.running j := fun j => rfl
        have hstn : set2 s.stamp n k (s.last + 1 + later) n k = s.last + 1 + later := by simp [set2]
        have hsto : ∀ m j, ¬ (m = n ∧ j = k) → set2 s.stamp n k (s.last + 1 + later) m j = s.stamp m j := by
          intro m j e
          simp [set2, e]
        have hstle : ∀ m j, set2 s.stamp n k (s.last + 1 + later) m j ≤ s.last + 1 + later := by
          intro m j
          by_cases e : m = n ∧ j = k
          · obtain ⟨rfl, rfl⟩ := e; rw [hstn]; exact Nat.le_refl _
          · rw [hsto m j e]; have := h.le m j; omega
        -- what the stamps are for what is done
        have stB' : ∀ m, set2 s.done n k true m .build = true → 0 < set2 s.stamp n k (s.last + 1 + later) m .build ∧ ∀ d ∈ g.others m, set2 s.stamp n k (s.last + 1 + later) d .install < set2 s.stamp n k (s.last + 1 + later) m .build := by
          intro m hd0
          rcases (hdone m .build).1 hd0 with ⟨rfl, rfl⟩ | hd
          · rw [hstn]
            refine ⟨by omega, fun d hdd => ?_⟩
            rw [hsto d .install (by simp)]
            have := h.le d .install; omega
          · have hd : s.done m .build = true := hd
            have hne : ¬ (m = n ∧ Kind.build = k) := by
              rintro ⟨rfl, rfl⟩; exact Bool.noConfusion (hnd.symm.trans ‹s.done m .build = true›)
            rw [hsto m .build hne]
            have := h.stB m hd
            refine ⟨this.1, fun d hdd => ?_⟩
            have hdi := h.doneB m hd d hdd
            rw [hsto d .install (by rintro ⟨rfl, rfl⟩; rw [hnd] at hdi; cases hdi)]
            exact this.2 d hdd
        have doneB' : ∀ m, set2 s.done n k true m .build = true → ∀ d ∈ g.others m, set2 s.done n k true d .install = true := by
          intro m hd d hdd
          refine (hdone d .install).2 (Or.inr ?_)
          rcases (hdone m .build).1 hd with ⟨rfl, rfl⟩ | hd
          · exact h.runB m hr d hdd
          · exact h.doneB m hd d hdd
        refine ⟨⟨h.pw, h.nodup, ?_, ?_, ?_, ?_, ?_, doneB', ?_, hstle, stB', ?_, ?_, ?_, ?_, ?_, ?_, ?_, ?_⟩, ?_⟩
        · intro m j hmn hw
          show (m, j) ∈ s.pending ∨ set s.running k none j = some m ∨ set2 s.done n k true m j = true
          rw [hdone, hrun]
          rcases h.cover m j hmn hw with hp | hp | hp
          · exact Or.inl hp
          · by_cases e : j = k
            · subst e
              rw [hr] at hp; cases hp
              exact Or.inr (Or.inr (Or.inl ⟨rfl, rfl⟩))
            · exact Or.inr (Or.inl (by simp [e, hp]))
          · exact Or.inr (Or.inr (Or.inr hp))
        · intro m j hd
          show (m, j) ∉ s.pending ∧ set s.running k none j ≠ some m
          rw [hrun]
          rcases (hdone m j).1 hd with ⟨rfl, rfl⟩ | hd
          · exact ⟨h.exR m j hr, by simp⟩
          · have := h.exD m j hd
            refine ⟨this.1, ?_⟩
            by_cases e : j = k
            · simp [e]
            · simp only [e, if_false]; exact this.2
        · intro m j hrj
          have hrj : set s.running k none j = some m := hrj
          rw [hrun] at hrj
          by_cases e : j = k
          · simp [e] at hrj
          · simp only [e, if_false] at hrj
            exact h.exR m j hrj
        · intro m hrj d hd
          have hrj : set s.running k none .build = some m := hrj
          rw [hrun] at hrj
          by_cases e : Kind.build = k
          · simp [e] at hrj
          · simp only [e, if_false] at hrj
            exact (hdone d .install).2 (Or.inr (h.runB m hrj d hd))
        · intro m j hrj hj
          have hrj : set s.running k none j = some m := hrj
          rw [hrun] at hrj
          by_cases e : j = k
          · simp [e] at hrj
          · simp only [e, if_false] at hrj
            exact (hdone m .build).2 (Or.inr (h.runO m j hrj hj))
        · intro m j hd
          refine (hdone m .build).2 ?_
          rcases (hdone m j).1 hd with ⟨rfl, rfl⟩ | hd
          · by_cases e : j = .build
            · exact Or.inl ⟨rfl, e.symm⟩
            · exact Or.inr (h.runO m j hr e)
          · exact Or.inr (h.doneO m j hd)
        · intro m j hd hj
          show set2 s.stamp n k (s.last + 1 + later) m .build < set2 s.stamp n k (s.last + 1 + later) m j
          rcases (hdone m j).1 hd with ⟨rfl, rfl⟩ | hd'
          · rw [hstn, hsto m .build (fun e => hj e.2.symm)]
            have := h.le m .build; omega
          · have hb := h.doneO m j hd'
            rw [hsto m .build (by rintro ⟨rfl, rfl⟩; rw [hnd] at hb; cases hb), hsto m j (by rintro ⟨rfl, rfl⟩; rw [hnd] at hd'; cases hd')]
            exact h.stK m j hd' hj
        · intro m j
          rw [done_cons_finish]
          show set2 s.done n k true m j = true ↔ _
          rw [hdone, h.logD m j]
          simp
        · intro m j hp
          have := h.logP m j hp
          simpa [Untouched] using this
        · intro m j hrj
          have hrj : set s.running k none j = some m := hrj
          rw [hrun] at hrj
          by_cases e : j = k
          · simp [e] at hrj
          · simp only [e, if_false] at hrj
            exact List.mem_cons_of_mem _ (h.logR m j hrj)
        · intro hok j m hf
          simp only [List.mem_cons, Ev.finish.injEq, Bool.false_eq_true, and_false, false_or] at hf
          exact h.well hok j m hf
        · intro hok j
          show active (.finish k n true :: s.log) j = set s.running k none j
          simp only [active, set]
          by_cases e : k = j
          · subst e; simp
          · have e' : j ≠ k := fun x => e x.symm
            simp only [e, e', if_false]
            exact h.act hok j
        · intro hf
          obtain ⟨j, m, h1, h2, h3⟩ := h.failR hf
          have e : j ≠ k := by rintro rfl; rw [he] at h2; cases h2
          exact ⟨j, m, by simp [set, e, h1], by simp [set, e, h2], List.mem_cons_of_mem _ h3⟩
        · refine ⟨h.logR n k hr, ?_, h.legal⟩
          intro hf
          exact (h.exD n k ((h.logD n k).2 (Or.inr hf))).2 hr
        · by_cases e : k = .build
          · subst e
            simp only [if_true, Bool.not_eq_true', Bool.or_eq_false_iff, Bool.not_eq_false']
            have hdn : set2 s.done n .build true n .build = true := (hdone n .build).2 (Or.inl ⟨rfl, rfl⟩)
            have hdeps := doneB' n hdn
            refine ⟨?_, ?_⟩
            · exact (outOfDate_false n hdeps).2 (stB' n hdn)
            · exact (depsInstalled_iff n).2 hdeps
          · simp [e]

/-- The end of an iteration: what was reaped has been dealt with. -/
def SettledK (s : St) (k : Kind) : Prop := ∀ n, s.running k = some n → s.exited k = none ∨ (s.exited k = some false ∧ s.ok = false)
def Settled (s : St) : Prop := ∀ k, SettledK s k

/-- What does not change when something is started. -/
theorem startBuild_ok (newer : Node → Bool) : (startBuild g newer s).ok = s.ok := by
  unfold startBuild
  split
  · rfl
  · simp only []
    split <;> rfl

theorem startWhich_ok (k : Kind) : (startWhich k s).ok = s.ok := by
  unfold startWhich
  split
  · rfl
  · simp only []
    split <;> rfl

theorem startBuild_running (newer : Node → Bool) (j : Kind) (h : j ≠ .build) : (startBuild g newer s).running j = s.running j := by
  unfold startBuild
  split
  · rfl
  · simp only []
    split
    · simp [set, h]
    · rfl

theorem startWhich_running (k j : Kind) (h : j ≠ k) : (startWhich k s).running j = s.running j := by
  unfold startWhich
  split
  · rfl
  · simp only []
    split
    · simp [set, h]
    · rfl

theorem settled_startBuild (newer : Node → Bool) (h : Settled s) : Settled (startBuild g newer s) := by
  unfold startBuild
  split
  · exact h
  · simp only []
    split
    · intro j n hr
      by_cases e : j = .build
      · subst e; left; simp [set]
      · simp only [set, e, if_false] at hr ⊢
        exact h j n hr
    · exact h

theorem settled_startWhich (k : Kind) (h : Settled s) : Settled (startWhich k s) := by
  unfold startWhich
  split
  · exact h
  · simp only []
    split
    · intro j n hr
      by_cases e : j = k
      · subst e; left; simp [set]
      · simp only [set, e, if_false] at hr ⊢
        exact h j n hr
    · exact h

theorem inv_startAll (h : Inv g nodes tests s) (hok : s.ok = true) (hs : Settled s) (newer : Node → Bool) :
    Inv g nodes tests (startAll g newer s) ∧ Settled (startAll g newer s) ∧ (startAll g newer s).ok = true := by
  have h1 : Inv g nodes tests (if (s.running .build).isSome then s else startBuild g newer s) ∧ Settled (if (s.running .build).isSome then s else startBuild g newer s) ∧ (if (s.running .build).isSome then s else startBuild g newer s).ok = true := by
    split
    · exact ⟨h, hs, hok⟩
    · rename_i e
      exact ⟨inv_startBuild h hok (by simpa using e) newer, settled_startBuild newer hs, by rw [startBuild_ok]; exact hok⟩
  unfold startAll
  simp only []
  generalize (if (s.running .build).isSome then s else startBuild g newer s) = s1 at h1 ⊢
  have h2 : Inv g nodes tests (if (s1.running .install).isSome then s1 else startWhich .install s1) ∧ Settled (if (s1.running .install).isSome then s1 else startWhich .install s1) ∧ (if (s1.running .install).isSome then s1 else startWhich .install s1).ok = true := by
    split
    · exact h1
    · rename_i e
      exact ⟨inv_startWhich h1.1 .install (by decide) h1.2.2 (by simpa using e), settled_startWhich _ h1.2.1, by rw [startWhich_ok]; exact h1.2.2⟩
  generalize (if (s1.running .install).isSome then s1 else startWhich .install s1) = s2 at h2 ⊢
  split
  · exact h2
  · rename_i e
    exact ⟨inv_startWhich h2.1 .test (by decide) h2.2.2 (by simpa using e), settled_startWhich _ h2.2.1, by rw [startWhich_ok]; exact h2.2.2⟩

theorem settled_finish_same (k : Kind) (later : Nat) : SettledK (finish g k later s).1 k := by
  unfold finish
  intro n
  split
  · intro hr; simp [set] at hr
  · rename_i he
    intro _; right; exact ⟨he, rfl⟩
  · rename_i h1 h2
    intro hr
    cases he : s.exited k with
    | none => exact Or.inl rfl
    | some b =>
      cases b with
      | true => exact absurd he (h1 n hr)
      | false => exact absurd he (h2 n hr)

theorem settled_finish_other (k j : Kind) (e : j ≠ k) (later : Nat) (h : SettledK s j) : SettledK (finish g k later s).1 j := by
  unfold finish
  intro n
  split
  · simp only [set, e, if_false]; exact h n
  · intro hr
    rcases h n hr with h | h
    · exact Or.inl h
    · exact Or.inr ⟨h.1, rfl⟩
  · exact h n

theorem inv_finishAll (h : Inv g nodes tests s) (later : Kind → Nat) :
    Inv g nodes tests (finishAll g later s).1 ∧ Settled (finishAll g later s).1 ∧ (finishAll g later s).2 = true := by
  unfold finishAll
  simp only []
  have h1 := inv_finish h .build (later .build)
  have h2 := inv_finish h1.1 .install (later .install)
  have h3 := inv_finish h2.1 .test (later .test)
  refine ⟨h3.1, ?_, by simp [h1.2, h2.2, h3.2]⟩
  intro j
  cases j with
  | build => exact settled_finish_other _ _ (by decide) _ (settled_finish_other _ _ (by decide) _ (settled_finish_same _ _))
  | install => exact settled_finish_other _ _ (by decide) _ (settled_finish_same _ _)
  | test => exact settled_finish_same _ _

theorem anyAlive_false : anyAlive s = false ↔ ∀ k, alive s k = false := by
  unfold anyAlive
  simp only [Bool.or_eq_false_iff]
  constructor
  · rintro ⟨⟨h1, h2⟩, h3⟩ k
    cases k <;> assumption
  · intro h
    exact ⟨⟨h _, h _⟩, h _⟩

theorem not_running (hs : Settled s) (hok : s.ok = true) (h : anyAlive s = false) (k : Kind) : s.running k = none := by
  cases hr : s.running k with
  | none => rfl
  | some n =>
    rcases hs k n hr with he | ⟨_, he⟩
    · have := anyAlive_false.1 h k
      simp [alive, hr, he] at this
    · rw [hok] at he; cases he

/-- What holds at the beginning of an iteration. -/
structure Top (g : Graph) (nodes : List Node) (tests : Bool) (s : St) : Prop where
  inv : Inv g nodes tests s
  settled : Settled s
  prev : s.prev = s.pending.length

/-- The outcome of the rest of an iteration. -/
theorem rest_cases (h : Inv g nodes tests s) (hs : Settled s) (a : Answer) :
    (∃ s', rest g a s = .more s' ∧ Top g nodes tests s') ∨ (rest g a s = .stuck s ∧ s.pending.length = s.prev ∧ anyAlive s = false) := by
  unfold rest
  split
  · rename_i hp
    split
    · left
      split
      · have := inv_finishAll (inv_wait h a.reaped) a.later
        generalize finishAll g a.later (wait s a.reaped) = o at this
        obtain ⟨s', b⟩ := o
        obtain ⟨t1, t2, t3⟩ := this
        simp only at t1 t2 t3
        subst t3
        exact ⟨_, rfl, inv_prev t1 _, t2, rfl⟩
      · exact ⟨_, rfl, inv_prev h _, hs, rfl⟩
    · rename_i ha
      exact Or.inr ⟨rfl, hp, by simpa using ha⟩
  · exact Or.inl ⟨_, rfl, inv_prev h _, hs, rfl⟩

/-- The outcomes of an iteration. -/
inductive Outcome (g : Graph) (nodes : List Node) (tests : Bool) (a : Answer) (s : St) : Out → Prop
  | more (s' : St) (t : Top g nodes tests s') : Outcome g nodes tests a s (.more s')
  | returned (hp : s.pending = []) (ha : anyAlive s = false) (hok : s.ok = true) : Outcome g nodes tests a s (.returned s)
  | failed (hok : s.ok = false) (ha : anyAlive s = false) : Outcome g nodes tests a s (.failed s)
  | stuck (hok : s.ok = true) (hp : (startAll g a.newer s).pending.length = (startAll g a.newer s).prev) (ha : anyAlive (startAll g a.newer s) = false)
      (hne : s.pending ≠ [] ∨ anyAlive s = true) : Outcome g nodes tests a s (.stuck (startAll g a.newer s))

theorem iter_cases (h : Top g nodes tests s) (a : Answer) : Outcome g nodes tests a s (iter g a s) := by
  unfold iter
  split
  · rename_i hp
    split
    · rename_i hok; exact .returned hp.1 hp.2 hok
    · rename_i hok; exact .failed (by simpa using hok) hp.2
  · rename_i hne
    split
    · rename_i hok
      have h1 := inv_startAll h.inv hok h.settled a.newer
      rcases rest_cases h1.1 h1.2.1 a with ⟨s', e, t⟩ | ⟨e, hp, ha⟩
      · rw [e]; exact .more s' t
      · rw [e]
        refine .stuck hok hp ha ?_
        by_cases hp' : s.pending = []
        · right
          cases hb : anyAlive s with
          | true => rfl
          | false => exact absurd ⟨hp', hb⟩ hne
        · exact Or.inl hp'
    · rename_i hok
      split
      · rename_i ha
        rcases rest_cases h.inv h.settled a with ⟨s', e, t⟩ | ⟨e, hp, ha'⟩
        · rw [e]; exact .more s' t
        · rw [ha'] at ha; cases ha
      · rename_i ha; exact .failed (by simpa using hok) (by simpa using ha)

/-- The outcome of the whole run is the outcome of its last iteration. -/
theorem runFrom_cases (as : List Answer) (h : Top g nodes tests s) :
    (∃ s', runFrom g as s = .more s' ∧ Top g nodes tests s') ∨
      ∃ a s', a ∈ as ∧ Top g nodes tests s' ∧ (∀ s'', iter g a s' ≠ .more s'') ∧ Outcome g nodes tests a s' (iter g a s') ∧ runFrom g as s = iter g a s' := by
  induction as generalizing s with
  | nil => exact Or.inl ⟨s, rfl, h⟩
  | cons a as ih =>
    have hc := iter_cases h a
    unfold runFrom
    cases hi : iter g a s with
    | more s' =>
      rw [hi] at hc
      cases hc with
      | more _ t =>
        rcases ih t with h1 | ⟨b, s1, hb, h1, h2, h3, h4⟩
        · exact Or.inl h1
        · exact Or.inr ⟨b, s1, List.mem_cons_of_mem _ hb, h1, h2, h3, h4⟩
    | returned s' => exact Or.inr ⟨a, s, List.mem_cons_self, h, by simp [hi], hc, hi.symm⟩
    | failed s' => exact Or.inr ⟨a, s, List.mem_cons_self, h, by simp [hi], hc, hi.symm⟩
    | stuck s' => exact Or.inr ⟨a, s, List.mem_cons_self, h, by simp [hi], hc, hi.symm⟩
    | internal s' => exact Or.inr ⟨a, s, List.mem_cons_self, h, by simp [hi], hc, hi.symm⟩

theorem mem_todo (n : Node) (k : Kind) : (n, k) ∈ todo nodes tests ↔ n ∈ nodes ∧ Wanted tests k := by
  unfold todo Wanted
  simp only [List.mem_flatMap]
  constructor
  · rintro ⟨m, hm, h⟩
    cases tests <;> simp at h
    · rcases h with ⟨rfl, rfl⟩ | ⟨rfl, rfl⟩ <;> simp [hm]
    · rcases h with ⟨rfl, rfl⟩ | ⟨rfl, rfl⟩ | ⟨rfl, rfl⟩ <;> simp [hm]
  · rintro ⟨hm, h⟩
    refine ⟨n, hm, ?_⟩
    cases k <;> cases tests <;> simp_all

theorem todo_nodup (h : nodes.Nodup) : (todo nodes tests).Nodup := by
  unfold todo
  induction nodes with
  | nil => simp
  | cons n ns ih =>
    rw [List.flatMap_cons]
    rw [List.nodup_cons] at h
    refine List.nodup_append.2 ⟨?_, ih h.2, ?_⟩
    · cases tests <;> simp
    · rintro ⟨a, k⟩ ha ⟨b, j⟩ hb e
      cases e
      have h1 := ((mem_todo (nodes := ns) (tests := tests) a k).1 hb).1
      have : a = n := by
        cases tests <;> simp at ha
        · rcases ha with ha | ha <;> exact ha.1
        · rcases ha with ha | ha | ha <;> exact ha.1
      subst this
      exact h.1 h1

theorem top_start (hn : nodes.Nodup) (stamp : Node → Kind → Nat) (last : Nat) (hle : ∀ n k, stamp n k ≤ last) : Top g nodes tests (start nodes tests stamp last) := by
  refine ⟨⟨?_, todo_nodup hn, ?_, ?_, ?_, ?_, ?_, ?_, ?_, hle, ?_, ?_, ?_, ?_, ?_, ?_, ?_, ?_, trivial⟩, ?_, rfl⟩
  · intro n k h; exact (mem_todo n k).1 h
  · intro n k h1 h2; exact Or.inl ((mem_todo n k).2 ⟨h1, h2⟩)
  · intro n k h; cases h
  · intro n k h; cases h
  · intro n h; cases h
  · intro n k h; cases h
  · intro n h; cases h
  · intro n k h; cases h
  · intro n h; cases h
  · intro n k h; cases h
  · intro n k
    constructor
    · intro h; cases h
    · rintro (h | h) <;> cases h
  · intro n k _; exact ⟨List.not_mem_nil, List.not_mem_nil⟩
  · intro n k h; cases h
  · intro _ k n h; cases h
  · intro _ k; rfl
  · intro h; cases h
  · intro k n h; cases h

/-! ## Other invariants -/

/-- A condition that the parts of an iteration preserve. -/
structure Kept (g : Graph) (nodes : List Node) (tests : Bool) (newer : Node → Bool) (P : St → Prop) : Prop where
  build : ∀ s, Inv g nodes tests s → s.ok = true → s.running .build = none → P s → P (startBuild g newer s)
  which : ∀ s k, k ≠ .build → Inv g nodes tests s → s.ok = true → s.running k = none → P s → P (startWhich k s)
  fin : ∀ s k later, Inv g nodes tests s → P s → P (finish g k later s).1
  wait : ∀ s r, P s → P (wait s r)
  prev : ∀ s p, P s → P { s with prev := p }

variable {newer : Node → Bool} {P : St → Prop}

theorem kept_startAll (hP : Kept g nodes tests newer P) (h : Inv g nodes tests s) (hok : s.ok = true) (p : P s) : P (startAll g newer s) := by
  have h1 : Inv g nodes tests (if (s.running .build).isSome then s else startBuild g newer s) ∧ (if (s.running .build).isSome then s else startBuild g newer s).ok = true ∧ P (if (s.running .build).isSome then s else startBuild g newer s) := by
    split
    · exact ⟨h, hok, p⟩
    · rename_i e
      have e : s.running .build = none := by simpa using e
      exact ⟨inv_startBuild h hok e newer, by rw [startBuild_ok]; exact hok, hP.build s h hok e p⟩
  unfold startAll
  simp only []
  generalize (if (s.running .build).isSome then s else startBuild g newer s) = s1 at h1 ⊢
  have h2 : Inv g nodes tests (if (s1.running .install).isSome then s1 else startWhich .install s1) ∧ (if (s1.running .install).isSome then s1 else startWhich .install s1).ok = true ∧ P (if (s1.running .install).isSome then s1 else startWhich .install s1) := by
    split
    · exact h1
    · rename_i e
      have e : s1.running .install = none := by simpa using e
      exact ⟨inv_startWhich h1.1 .install (by decide) h1.2.1 e, by rw [startWhich_ok]; exact h1.2.1, hP.which s1 .install (by decide) h1.1 h1.2.1 e h1.2.2⟩
  generalize (if (s1.running .install).isSome then s1 else startWhich .install s1) = s2 at h2 ⊢
  split
  · exact h2.2.2
  · rename_i e
    exact hP.which s2 .test (by decide) h2.1 h2.2.1 (by simpa using e) h2.2.2

theorem kept_rest (hP : Kept g nodes tests newer P) (h : Inv g nodes tests s) (p : P s) (a : Answer) : P (rest g a s).st := by
  unfold rest
  split
  · split
    · split
      · have i0 := inv_wait h a.reaped
        have p0 := hP.wait s a.reaped p
        have i1 := (inv_finish i0 .build (a.later .build)).1
        have p1 := hP.fin _ .build (a.later .build) i0 p0
        have i2 := (inv_finish i1 .install (a.later .install)).1
        have p2 := hP.fin _ .install (a.later .install) i1 p1
        have p3 := hP.fin _ .test (a.later .test) i2 p2
        have e : P (finishAll g a.later (Deptool.wait s a.reaped)).1 := p3
        generalize finishAll g a.later (Deptool.wait s a.reaped) = o at e ⊢
        obtain ⟨s', b⟩ := o
        cases b with
        | true => exact hP.prev _ _ e
        | false => exact e
      · exact hP.prev _ _ p
    · exact p
  · exact hP.prev _ _ p

theorem kept_iter {a : Answer} (hP : Kept g nodes tests a.newer P) (h : Top g nodes tests s) (p : P s) : P (iter g a s).st := by
  unfold iter
  split
  · split <;> exact p
  · split
    · rename_i hok
      exact kept_rest hP (inv_startAll h.inv hok h.settled a.newer).1 (kept_startAll hP h.inv hok p) a
    · split
      · exact kept_rest hP h.inv p a
      · exact p

theorem kept_runFrom (as : List Answer) (hP : ∀ a ∈ as, Kept g nodes tests a.newer P) (h : Top g nodes tests s) (p : P s) : P (runFrom g as s).st := by
  induction as generalizing s with
  | nil => exact p
  | cons a as ih =>
    have hc := iter_cases h a
    have hp := kept_iter (hP a List.mem_cons_self) h p
    unfold runFrom
    cases hi : iter g a s with
    | more s' =>
      rw [hi] at hc hp
      cases hc with
      | more _ t => exact ih (fun b hb => hP b (List.mem_cons_of_mem _ hb)) t hp
    | _ => rw [hi] at hp; exact hp

theorem inv_runFrom (as : List Answer) (h : Top g nodes tests s) : Inv g nodes tests (runFrom g as s).st := by
  induction as generalizing s with
  | nil => exact h.inv
  | cons a as ih =>
    have hc := iter_cases h a
    unfold runFrom
    cases hi : iter g a s with
    | more s' =>
      rw [hi] at hc
      cases hc with
      | more _ t => exact ih t
    | returned s' => rw [hi] at hc; cases hc; exact h.inv
    | failed s' => rw [hi] at hc; cases hc; exact h.inv
    | stuck s' =>
      rw [hi] at hc
      cases hc with
      | stuck hok _ _ _ => exact (inv_startAll h.inv hok h.settled a.newer).1
    | internal s' => rw [hi] at hc; cases hc

/-! ## Progress -/

def aliveN (s : St) : Nat := (alive s .build).toNat + (alive s .install).toNat + (alive s .test).toNat

/-- What is left to happen. -/
def left (s : St) : Nat := 2 * s.pending.length + aliveN s

theorem left_startBuild (newer : Node → Bool) (hr : s.running .build = none) :
    (startBuild g newer s = s ∨ (left (startBuild g newer s) < left s ∧ (startBuild g newer s).pending.length < s.pending.length)) ∧ (startBuild g newer s).prev = s.prev := by
  unfold startBuild
  cases hf : s.pending.find? fun x => decide (x.2 = .build) && depsInstalled g s x.1 with
  | none => exact ⟨Or.inl rfl, rfl⟩
  | some x =>
    have hm := List.mem_of_find?_eq_some hf
    have hl := List.length_erase_of_mem hm
    have hpos : 0 < s.pending.length := List.length_pos_of_mem hm
    simp only []
    refine ⟨Or.inr ?_, by split <;> rfl⟩
    split
    · simp only [left, aliveN, alive, set]
      rw [hl, hr]
      simp
      omega
    · simp only [left, aliveN, alive]
      rw [hl]
      omega

theorem left_startWhich (k : Kind) (hr : s.running k = none) :
    (startWhich k s = s ∨ (left (startWhich k s) < left s ∧ (startWhich k s).pending.length < s.pending.length)) ∧ (startWhich k s).prev = s.prev := by
  unfold startWhich
  cases hf : s.pending.find? fun x => decide (x.2 = k) && s.done x.1 .build with
  | none => exact ⟨Or.inl rfl, rfl⟩
  | some x =>
    have hm := List.mem_of_find?_eq_some hf
    have hl := List.length_erase_of_mem hm
    have hpos : 0 < s.pending.length := List.length_pos_of_mem hm
    simp only []
    refine ⟨Or.inr ?_, by split <;> rfl⟩
    split
    · simp only [left, aliveN, alive, set]
      rw [hl]
      cases k <;> simp [hr] <;> omega
    · simp only [left, aliveN, alive]
      rw [hl]
      omega

theorem left_startAll (newer : Node → Bool) :
    (startAll g newer s = s ∨ (left (startAll g newer s) < left s ∧ (startAll g newer s).pending.length < s.pending.length)) ∧ (startAll g newer s).prev = s.prev := by
  have h1 : ((if (s.running .build).isSome then s else startBuild g newer s) = s ∨ (left (if (s.running .build).isSome then s else startBuild g newer s) < left s ∧ (if (s.running .build).isSome then s else startBuild g newer s).pending.length < s.pending.length)) ∧ (if (s.running .build).isSome then s else startBuild g newer s).prev = s.prev := by
    split
    · exact ⟨Or.inl rfl, rfl⟩
    · rename_i e
      exact left_startBuild newer (by simpa using e)
  unfold startAll
  simp only []
  generalize (if (s.running .build).isSome then s else startBuild g newer s) = s1 at h1 ⊢
  have h2 : ((if (s1.running .install).isSome then s1 else startWhich .install s1) = s1 ∨ (left (if (s1.running .install).isSome then s1 else startWhich .install s1) < left s1 ∧ (if (s1.running .install).isSome then s1 else startWhich .install s1).pending.length < s1.pending.length)) ∧ (if (s1.running .install).isSome then s1 else startWhich .install s1).prev = s1.prev := by
    split
    · exact ⟨Or.inl rfl, rfl⟩
    · rename_i e
      exact left_startWhich .install (by simpa using e)
  generalize (if (s1.running .install).isSome then s1 else startWhich .install s1) = s2 at h2 ⊢
  have h3 : ((if (s2.running .test).isSome then s2 else startWhich .test s2) = s2 ∨ (left (if (s2.running .test).isSome then s2 else startWhich .test s2) < left s2 ∧ (if (s2.running .test).isSome then s2 else startWhich .test s2).pending.length < s2.pending.length)) ∧ (if (s2.running .test).isSome then s2 else startWhich .test s2).prev = s2.prev := by
    split
    · exact ⟨Or.inl rfl, rfl⟩
    · rename_i e
      exact left_startWhich .test (by simpa using e)
  generalize (if (s2.running .test).isSome then s2 else startWhich .test s2) = s3 at h3 ⊢
  refine ⟨?_, by rw [h3.2, h2.2, h1.2]⟩
  rcases h1.1 with rfl | h1 <;> rcases h2.1 with rfl | h2 <;> rcases h3.1 with rfl | h3
  · exact Or.inl rfl
  · exact Or.inr h3
  · exact Or.inr h2
  · exact Or.inr ⟨by omega, by omega⟩
  · exact Or.inr h1
  · exact Or.inr ⟨by omega, by omega⟩
  · exact Or.inr ⟨by omega, by omega⟩
  · exact Or.inr ⟨by omega, by omega⟩

theorem alive_finish (k j : Kind) (later : Nat) : alive (finish g k later s).1 j = alive s j ∧ (finish g k later s).1.pending = s.pending := by
  unfold finish
  split
  · rename_i h1 h2
    simp only [stampNow]
    refine ⟨?_, trivial⟩
    by_cases e : j = k
    · subst e; simp [alive, set, h2]
    · simp [alive, set, e]
  · exact ⟨rfl, rfl⟩
  · exact ⟨rfl, rfl⟩

theorem left_finishAll (later : Kind → Nat) : left (finishAll g later s).1 = left s ∧ (finishAll g later s).1.pending = s.pending := by
  have h : ∀ j, alive (finishAll g later s).1 j = alive s j := by
    intro j
    unfold finishAll
    simp only []
    rw [(alive_finish ..).1, (alive_finish ..).1, (alive_finish ..).1]
  have h2 : (finishAll g later s).1.pending = s.pending := by
    unfold finishAll
    simp only []
    rw [(alive_finish _ .build _).2, (alive_finish _ .build _).2, (alive_finish _ .build _).2]
  refine ⟨?_, h2⟩
  simp only [left, aliveN]
  rw [h, h, h, h2]

theorem alive_wait (r : Kind → Option Bool) (k : Kind) : alive (wait s r) k = (alive s k && !(r k).isSome) := by
  unfold wait alive
  cases h1 : s.running k <;> cases h2 : s.exited k <;> cases hr : r k <;> simp [h1, h2, hr]

theorem left_wait (r : Kind → Option Bool) (h : anyReaped s r = true) : left (wait s r) < left s := by
  simp only [left, aliveN, alive_wait]
  show 2 * s.pending.length + _ < _
  unfold anyReaped at h
  generalize (r .build).isSome = r1 at h ⊢
  generalize (r .install).isSome = r2 at h ⊢
  generalize (r .test).isSome = r3 at h ⊢
  generalize alive s .build = a1 at h ⊢
  generalize alive s .install = a2 at h ⊢
  generalize alive s .test = a3 at h ⊢
  cases r1 <;> cases r2 <;> cases r3 <;> cases a1 <;> cases a2 <;> cases a3 <;> simp at h ⊢

/-- An iteration either does something or leaves everything as it is while a process is running. -/
theorem iter_left (hp : s.prev = s.pending.length) (a : Answer) (s' : St) (h : iter g a s = .more s') :
    left s' < left s ∨ (s' = s ∧ anyAlive s = true ∧ anyReaped s a.reaped = false) := by
  have key : ∀ s1, (s1 = s ∨ (left s1 < left s ∧ s1.pending.length < s.pending.length)) → s1.prev = s.prev → rest g a s1 = .more s' → left s' < left s ∨ (s' = s ∧ anyAlive s = true ∧ anyReaped s a.reaped = false) := by
    intro s1 h1 h2 h3
    unfold rest at h3
    split at h3
    · rename_i e
      rcases h1 with rfl | h1
      · split at h3
        · rename_i hal
          split at h3
          · rename_i hre
            left
            have h4 := (left_finishAll (g := g) (s := wait s1 a.reaped) a.later).1
            have h5 := left_wait a.reaped hre
            generalize finishAll g a.later (wait s1 a.reaped) = o at h3 h4
            obtain ⟨s2, b⟩ := o
            cases b with
            | true =>
              simp only [Out.more.injEq] at h3
              subst h3
              show left s2 < left s1
              simp only at h4
              omega
            | false => simp at h3
          · rename_i hre
            right
            simp only [Out.more.injEq] at h3
            refine ⟨?_, hal, by simpa using hre⟩
            rw [← h3]
            obtain ⟨p1, p2, p3, p4, p5, p6, p7, p8, p9⟩ := s1
            simp only at hp
            subst hp
            rfl
        · cases h3
      · omega
    · rename_i e
      simp only [Out.more.injEq] at h3
      subst h3
      rcases h1 with rfl | h1
      · exact absurd hp.symm e
      · left; exact h1.1
  unfold iter at h
  split at h
  · split at h <;> cases h
  · split at h
    · have := left_startAll (g := g) (s := s) a.newer
      exact key _ this.1 this.2 h
    · split at h
      · exact key s (Or.inl rfl) rfl h
      · cases h

/-! ## Nothing is stuck without a cycle -/

theorem startAll_same_length (newer : Node → Bool) (h : (startAll g newer s).pending.length = s.pending.length) : startAll g newer s = s := by
  rcases (left_startAll (g := g) (s := s) newer).1 with h' | h'
  · exact h'
  · omega

theorem startBuild_same (newer : Node → Bool) (h : (startBuild g newer s).pending.length = s.pending.length) (n : Node) (hm : (n, Kind.build) ∈ s.pending) : depsInstalled g s n = false := by
  cases hd : depsInstalled g s n with
  | false => rfl
  | true =>
    exfalso
    unfold startBuild at h
    cases hf : s.pending.find? fun x => decide (x.2 = .build) && depsInstalled g s x.1 with
    | none =>
      have := List.find?_eq_none.1 hf (n, .build) hm
      simp [hd] at this
    | some x =>
      rw [hf] at h
      have hx := List.mem_of_find?_eq_some hf
      have hl := List.length_erase_of_mem hx
      have hpos : 0 < s.pending.length := List.length_pos_of_mem hx
      simp only [] at h
      split at h
      · have h : (s.pending.erase x).length = s.pending.length := h
        omega
      · have h : (s.pending.erase x).length = s.pending.length := h
        omega

theorem startWhich_same (k : Kind) (h : (startWhich k s).pending.length = s.pending.length) (n : Node) (hm : (n, k) ∈ s.pending) : s.done n .build = false := by
  cases hd : s.done n .build with
  | false => rfl
  | true =>
    exfalso
    unfold startWhich at h
    cases hf : s.pending.find? fun x => decide (x.2 = k) && s.done x.1 .build with
    | none =>
      have := List.find?_eq_none.1 hf (n, k) hm
      simp [hd] at this
    | some x =>
      rw [hf] at h
      have hx := List.mem_of_find?_eq_some hf
      have hl := List.length_erase_of_mem hx
      have hpos : 0 < s.pending.length := List.length_pos_of_mem hx
      simp only [] at h
      split at h
      · have h : (s.pending.erase x).length = s.pending.length := h
        omega
      · have h : (s.pending.erase x).length = s.pending.length := h
        omega

/-- If nothing could be started and nothing is running, then nothing that is pending is ready. -/
theorem nothing_ready (newer : Node → Bool) (h : startAll g newer s = s) (hr : ∀ k, s.running k = none) :
    (∀ n, (n, Kind.build) ∈ s.pending → depsInstalled g s n = false) ∧ ∀ n k, k ≠ .build → (n, k) ∈ s.pending → s.done n .build = false := by
  have hB := left_startBuild (g := g) (s := s) newer (hr .build)
  unfold startAll at h
  simp only [] at h
  have e1 : (if (s.running .build).isSome then s else startBuild g newer s) = startBuild g newer s := by simp [hr]
  rw [e1] at h
  generalize hs1 : startBuild g newer s = s1 at h hB
  have hI : ((if (s1.running .install).isSome then s1 else startWhich .install s1) = s1 ∨ (left (if (s1.running .install).isSome then s1 else startWhich .install s1) < left s1 ∧ (if (s1.running .install).isSome then s1 else startWhich .install s1).pending.length < s1.pending.length)) ∧ (if (s1.running .install).isSome then s1 else startWhich .install s1).prev = s1.prev := by
    split
    · exact ⟨Or.inl rfl, rfl⟩
    · rename_i e
      exact left_startWhich .install (by simpa using e)
  generalize hs2 : (if (s1.running .install).isSome then s1 else startWhich .install s1) = s2 at h hI
  have hT : ((if (s2.running .test).isSome then s2 else startWhich .test s2) = s2 ∨ (left (if (s2.running .test).isSome then s2 else startWhich .test s2) < left s2 ∧ (if (s2.running .test).isSome then s2 else startWhich .test s2).pending.length < s2.pending.length)) ∧ (if (s2.running .test).isSome then s2 else startWhich .test s2).prev = s2.prev := by
    split
    · exact ⟨Or.inl rfl, rfl⟩
    · rename_i e
      exact left_startWhich .test (by simpa using e)
  rw [h] at hT
  have l1 : s1.pending.length ≤ s.pending.length := by rcases hB.1 with h | h; (rw [h]; exact Nat.le_refl _); omega
  have l2 : s2.pending.length ≤ s1.pending.length := by rcases hI.1 with h | h; (rw [h]; exact Nat.le_refl _); omega
  have l3 : s.pending.length ≤ s2.pending.length := by rcases hT.1 with h | h; (rw [h]; exact Nat.le_refl _); omega
  have e1 : s1 = s := by rcases hB.1 with h | h; exact h; omega
  subst e1
  have e2 : s2 = s1 := by rcases hI.1 with h | h; exact h; omega
  subst e2
  refine ⟨fun n hm => startBuild_same newer (by rw [hs1]) n hm, ?_⟩
  intro n k hk hm
  cases k with
  | build => exact absurd rfl hk
  | install =>
    refine startWhich_same .install ?_ n hm
    have : (if (s2.running .install).isSome then s2 else startWhich .install s2) = startWhich .install s2 := by simp [hr]
    rw [← this, hs2]
  | test =>
    refine startWhich_same .test ?_ n hm
    have : (if (s2.running .test).isSome then s2 else startWhich .test s2) = startWhich .test s2 := by simp [hr]
    rw [← this, h]

end Verif.Deptool
