import Verif.Deptool.BuildLemmas

/-!
# The parallel build: order, outcome, progress, second run, contents
-/

namespace Verif.Deptool

/-! ## Specification -/

/-- The dependencies have no cycle: there is a rank that falls along them. -/
def Acyclic (g : Graph) (nodes : List Node) : Prop := ∃ rank : Node → Nat, ∀ n ∈ nodes, ∀ d ∈ g.others n, rank d < rank n

/-- The dependencies are among the directories (lines 1684-1709 collect them). -/
def Closed (g : Graph) (nodes : List Node) : Prop := ∀ n ∈ nodes, ∀ d ∈ g.others n, d ∈ nodes

/-- How many iterations of the loop begin with processes running none of which ends. -/
def idle (g : Graph) : List Answer → St → Nat
  | [], _ => 0
  | a :: as, s =>
    match iter g a s with
    | .more s' => (if anyAlive s && !anyReaped s a.reaped then 1 else 0) + idle g as s'
    | _ => 0

/-- The files in the build directories and the installed ones. -/
structure Files (α : Type) where
  built : Node → α
  installed : Node → α

/-- What a log does to the files: a build that has ended well leaves what `make` makes of the source and of the installed files of the dependencies, installing copies; while a process is running and when it has failed the files are something else. -/
def files {α : Type} (g : Graph) (make : Node → List α → α) (partway : Node → α) (c : Files α) : List Ev → Files α
  | [] => c
  | .start .build n :: log => { files g make partway c log with built := fun m => if m = n then partway n else (files g make partway c log).built m }
  | .start .install n :: log => { files g make partway c log with installed := fun m => if m = n then partway n else (files g make partway c log).installed m }
  | .finish .build n true :: log =>
    { files g make partway c log with
      built := fun m => if m = n then make n ((g.others n).map (files g make partway c log).installed) else (files g make partway c log).built m }
  | .finish .install n true :: log =>
    { files g make partway c log with installed := fun m => if m = n then (files g make partway c log).built n else (files g make partway c log).installed m }
  | _ :: log => files g make partway c log

/-- The stamps say that the build is newer than what is installed of the dependencies. -/
def BuildCurrent (g : Graph) (st : Node → Kind → Nat) (n : Node) : Prop := 0 < st n .build ∧ ∀ d ∈ g.others n, st d .install < st n .build
def InstallCurrent (st : Node → Kind → Nat) (n : Node) : Prop := 0 < st n .build ∧ st n .build < st n .install

/-- The stamps tell the truth about the files, but for directories with changed sources. -/
structure Truthful {α : Type} (g : Graph) (make : Node → List α → α) (changed : Node → Prop) (st : Node → Kind → Nat) (c : Files α) : Prop where
  build : ∀ n, BuildCurrent g st n → (∀ d ∈ g.others n, InstallCurrent st d) → ¬ changed n → c.built n = make n ((g.others n).map c.installed)
  install : ∀ n, InstallCurrent st n → c.installed n = c.built n

/-! ## Order -/

/-- C159: whatever the processes do and however long they take, a build is started (or found up to date) only when everything it needs from other sources has been installed, a directory is installed and tested only when it has been built, every step is looked at once at most, of each kind there is one process at a time, and after a failure nothing is started. -/
theorem build_order (g : Graph) (nodes : List Node) (tests : Bool) (stamp : Node → Kind → Nat) (last : Nat) (as : List Answer) (hn : nodes.Nodup) (hle : ∀ n k, stamp n k ≤ last) :
    Legal g (runFrom g as (start nodes tests stamp last)).st.log :=
  (inv_runFrom as (top_start hn stamp last hle)).legal

/-! ## Outcome -/

/-- C160: when `depBuildParallel` returns, every step has been done for every directory, all went well and no process is left. -/
theorem build_returns (g : Graph) (nodes : List Node) (tests : Bool) (stamp : Node → Kind → Nat) (last : Nat) (as : List Answer) (hn : nodes.Nodup) (hle : ∀ n k, stamp n k ≤ last)
    (s : St) (h : runFrom g as (start nodes tests stamp last) = .returned s) :
    (∀ n ∈ nodes, ∀ k, Wanted tests k → Done s.log n k) ∧ AllWell s.log ∧ ∀ k, active s.log k = none := by
  rcases runFrom_cases as (top_start (g := g) (tests := tests) hn stamp last hle) with ⟨s', e, _⟩ | ⟨a, s', ha, t, h1, h2, h3⟩
  · rw [h] at e; cases e
  · rw [h] at h3
    rw [← h3] at h2
    cases h2 with
    | returned hp hal hok =>
      have hr := not_running t.settled hok hal
      refine ⟨?_, t.inv.well hok, ?_⟩
      · intro n hm k hk
        rcases t.inv.cover n k hm hk with h | h | h
        · rw [hp] at h; cases h
        · rw [hr] at h; cases h
        · exact (t.inv.logD n k).1 h
      · intro k
        rw [t.inv.act hok k, hr]

/-- C160: it exits with an error only when a process has failed, and it never fails its own check after a build. -/
theorem build_fails (g : Graph) (nodes : List Node) (tests : Bool) (stamp : Node → Kind → Nat) (last : Nat) (as : List Answer) (hn : nodes.Nodup) (hle : ∀ n k, stamp n k ≤ last) :
    (∀ s, runFrom g as (start nodes tests stamp last) = .failed s → ¬ AllWell s.log) ∧
      (∀ s, runFrom g as (start nodes tests stamp last) ≠ .internal s) := by
  rcases runFrom_cases as (top_start (g := g) (tests := tests) hn stamp last hle) with ⟨s', e, _⟩ | ⟨a, s', ha, t, h1, h2, h3⟩
  · exact ⟨fun s h => (by rw [e] at h; cases h), fun s h => (by rw [e] at h; cases h)⟩
  · rw [h3]
    generalize iter g a s' = o at h1 h2
    cases h2 with
    | more s'' _ => exact absurd rfl (h1 s'')
    | returned => exact ⟨fun s h => (by cases h), fun s h => (by cases h)⟩
    | stuck => exact ⟨fun s h => (by cases h), fun s h => (by cases h)⟩
    | failed hok _ =>
      refine ⟨fun s h => ?_, fun s h => (by cases h)⟩
      cases h
      obtain ⟨k, n, _, _, h4⟩ := t.inv.failR hok
      exact fun hw => hw k n h4

/-- C160: when nothing can go on, the dependencies have a cycle; when it returns they have none. -/
theorem build_cycle (g : Graph) (nodes : List Node) (tests : Bool) (stamp : Node → Kind → Nat) (last : Nat) (as : List Answer) (hn : nodes.Nodup) (hle : ∀ n k, stamp n k ≤ last)
    (hc : Closed g nodes) :
    (∀ s, runFrom g as (start nodes tests stamp last) = .stuck s → ¬ Acyclic g nodes) ∧
      (∀ s, runFrom g as (start nodes tests stamp last) = .returned s → Acyclic g nodes) := by
  constructor
  · rintro s h ⟨rank, hrank⟩
    rcases runFrom_cases as (top_start (g := g) (tests := tests) hn stamp last hle) with ⟨s', e, _⟩ | ⟨a, s', ha, t, h1, h2, h3⟩
    · rw [h] at e; cases e
    · rw [h] at h3
      rw [← h3] at h2
      cases h2 with
      | stuck hok hp hal hne =>
        have hprev := (left_startAll (g := g) (s := s') a.newer).2
        rw [hprev, t.prev] at hp
        have hsame := startAll_same_length a.newer hp
        rw [hsame] at hal
        have hr := not_running t.settled hok hal
        have hpne : s'.pending ≠ [] := by
          rcases hne with h | h
          · exact h
          · rw [hal] at h; cases h
        obtain ⟨r1, r2⟩ := nothing_ready a.newer hsame hr
        have step : ∀ n, n ∈ nodes → s'.done n .build = false → (n, Kind.build) ∈ s'.pending := by
          intro n hm hd
          rcases t.inv.cover n .build hm (by intro e; cases e) with h | h | h
          · exact h
          · rw [hr] at h; cases h
          · rw [hd] at h; cases h
        have no : ∀ r n, rank n ≤ r → (n, Kind.build) ∈ s'.pending → False := by
          intro r
          induction r with
          | zero =>
            intro n hrn hm
            have hd := r1 n hm
            have hnm := (t.inv.pw n .build hm).1
            have : ¬ ∀ d ∈ g.others n, s'.done d .install = true := by
              intro h; rw [(depsInstalled_iff n).2 h] at hd; cases hd
            apply this
            intro d hdd
            have := hrank n hnm d hdd
            omega
          | succ r ih =>
            intro n hrn hm
            have hd := r1 n hm
            have hnm := (t.inv.pw n .build hm).1
            have : ¬ ∀ d ∈ g.others n, s'.done d .install = true := by
              intro h; rw [(depsInstalled_iff n).2 h] at hd; cases hd
            apply this
            intro d hdd
            have hlt := hrank n hnm d hdd
            have hdm := hc n hnm d hdd
            rcases t.inv.cover d .install hdm (by intro e; cases e) with h | h | h
            · exact (ih d (by omega) (step d hdm (r2 d .install (by decide) h))).elim
            · rw [hr] at h; cases h
            · exact h
        obtain ⟨⟨n, k⟩, hx⟩ := List.exists_mem_of_ne_nil _ hpne
        have hnm := (t.inv.pw n k hx).1
        by_cases e : k = .build
        · subst e; exact no _ n (Nat.le_refl _) hx
        · exact no _ n (Nat.le_refl _) (step n hnm (r2 n k e hx))
  · intro s h
    have hd := (build_returns g nodes tests stamp last as hn hle s h).1
    have hi : Inv g nodes tests s := by
      have := inv_runFrom as (top_start (g := g) (tests := tests) hn stamp last hle)
      rw [h] at this; exact this
    refine ⟨fun n => s.stamp n .install, ?_⟩
    intro n hm d hdd
    have h1 := hi.stB n ((hi.logD n .build).2 (hd n hm .build (by intro e; cases e)))
    have h2 := hi.stK n .install ((hi.logD n .install).2 (hd n hm .install (by intro e; cases e))) (by decide)
    have := h1.2 d hdd
    show s.stamp d .install < s.stamp n .install
    omega

/-! ## Progress -/

/-- C161: there are at most two iterations for each step, apart from those in which processes are running and none of them ends; so the loop ends if the processes do. -/
theorem build_ends (g : Graph) (nodes : List Node) (tests : Bool) (stamp : Node → Kind → Nat) (last : Nat) (as : List Answer) (hn : nodes.Nodup) (hle : ∀ n k, stamp n k ≤ last)
    (s : St) (h : runFrom g as (start nodes tests stamp last) = .more s) :
    as.length ≤ idle g as (start nodes tests stamp last) + 2 * (todo nodes tests).length := by
  have key : ∀ (as : List Answer) (s0 s : St), Top g nodes tests s0 → runFrom g as s0 = .more s → as.length + left s ≤ idle g as s0 + left s0 := by
    intro as
    induction as with
    | nil =>
      intro s0 s _ h
      simp only [runFrom, Out.more.injEq] at h
      subst h
      simp [idle]
    | cons a as ih =>
      intro s0 s t h
      have hc := iter_cases t a
      unfold runFrom at h
      unfold idle
      cases hi : iter g a s0 with
      | more s1 =>
        rw [hi] at h hc
        simp only at h
        cases hc with
        | more _ t1 =>
          have h1 := ih s1 s t1 h
          have h2 := iter_left t.prev a s1 hi
          simp only [List.length_cons]
          rcases h2 with h2 | ⟨rfl, h3, h4⟩
          · omega
          · rw [h3, h4]
            simp only [Bool.not_false, Bool.and_self, if_true]
            omega
      | _ => rw [hi] at h; cases h
  have h1 := key as _ s (top_start hn stamp last hle) h
  have h2 : left (start nodes tests stamp last) = 2 * (todo nodes tests).length := by
    simp [left, aliveN, alive, start]
  omega

/-! ## The second run -/

/-- The stamps say that everything has been done. -/
def Fresh (g : Graph) (nodes : List Node) (tests : Bool) (st : Node → Kind → Nat) : Prop :=
  ∀ n ∈ nodes, BuildCurrent g st n ∧ ∀ k, k ≠ .build → Wanted tests k → st n .build < st n k

/-- When it returns, the stamps say that everything has been done. -/
theorem build_fresh (g : Graph) (nodes : List Node) (tests : Bool) (stamp : Node → Kind → Nat) (last : Nat) (as : List Answer) (hn : nodes.Nodup) (hle : ∀ n k, stamp n k ≤ last)
    (s : St) (h : runFrom g as (start nodes tests stamp last) = .returned s) : Fresh g nodes tests s.stamp ∧ ∀ n k, s.stamp n k ≤ s.last := by
  have hd := (build_returns g nodes tests stamp last as hn hle s h).1
  have hi : Inv g nodes tests s := by
    have := inv_runFrom as (top_start (g := g) (tests := tests) hn stamp last hle)
    rw [h] at this; exact this
  refine ⟨fun n hm => ⟨hi.stB n ((hi.logD n .build).2 (hd n hm .build (by intro e; cases e))), fun k hk hw => ?_⟩, hi.le⟩
  exact hi.stK n k ((hi.logD n k).2 (hd n hm k hw)) hk

/-- Only looked at. -/
def Quiet (st : Node → Kind → Nat) (s : St) : Prop := s.stamp = st ∧ (∀ k, s.running k = none) ∧ ∀ e ∈ s.log, ∃ k n, e = Ev.upToDate k n

theorem quiet_kept (g : Graph) (nodes : List Node) (tests : Bool) (st : Node → Kind → Nat) (hf : Fresh g nodes tests st) (newer : Node → Bool) (hnew : ∀ n ∈ nodes, newer n = false) :
    Kept g nodes tests newer (Quiet st) := by
  refine ⟨?_, ?_, ?_, ?_, ?_⟩
  · intro s hi hok hr hq
    unfold startBuild
    cases hfd : s.pending.find? fun x => decide (x.2 = .build) && depsInstalled g s x.1 with
    | none => exact hq
    | some x =>
      obtain ⟨n, k⟩ := x
      have hm := List.mem_of_find?_eq_some hfd
      have hp := List.find?_some hfd
      simp only [Bool.and_eq_true, decide_eq_true_eq] at hp
      obtain ⟨rfl, hp⟩ := hp
      have hnm := (hi.pw n .build hm).1
      have ho : outOfDate g s n = false := (outOfDate_false n ((depsInstalled_iff n).1 hp)).2 (by rw [hq.1]; exact (hf n hnm).1)
      have ho' : outOfDate g { s with pending := s.pending.erase (n, .build) } n = false := ho
      simp only [ho', hnew n hnm, Bool.or_self, Bool.false_eq_true, if_false]
      refine ⟨hq.1, hq.2.1, ?_⟩
      intro e he
      rcases List.mem_cons.1 he with rfl | he
      · exact ⟨_, _, rfl⟩
      · exact hq.2.2 e he
  · intro s k hk hi hok hr hq
    unfold startWhich
    cases hfd : s.pending.find? fun x => decide (x.2 = k) && s.done x.1 .build with
    | none => exact hq
    | some x =>
      obtain ⟨n, j⟩ := x
      have hm := List.mem_of_find?_eq_some hfd
      have hp := List.find?_some hfd
      simp only [Bool.and_eq_true, decide_eq_true_eq] at hp
      obtain ⟨rfl, hp⟩ := hp
      have hpw := hi.pw n j hm
      have hlt := (hf n hpw.1).2 j hk hpw.2
      rw [← hq.1] at hlt
      have hle : ¬ s.stamp n j ≤ s.stamp n .build := by omega
      simp only [hle, if_false]
      refine ⟨hq.1, hq.2.1, ?_⟩
      intro e he
      rcases List.mem_cons.1 he with rfl | he
      · exact ⟨_, _, rfl⟩
      · exact hq.2.2 e he
  · intro s k later hi hq
    unfold finish
    rw [hq.2.1 k]
    exact hq
  · intro s r hq; exact hq
  · intro s p hq; exact hq

/-- C162: after a run that returned, with the sources unchanged, a run (without tests, or with them if the first had them) starts nothing, and it returns after at most two iterations for each step. -/
theorem build_again (g : Graph) (nodes : List Node) (tests : Bool) (stamp : Node → Kind → Nat) (last : Nat) (as : List Answer) (hn : nodes.Nodup) (hle : ∀ n k, stamp n k ≤ last)
    (hc : Closed g nodes) (s : St) (h : runFrom g as (start nodes tests stamp last) = .returned s)
    (tests' : Bool) (ht : tests' = true → tests = true) (last' : Nat) (hl : s.last ≤ last') (bs : List Answer) (hb : ∀ b ∈ bs, ∀ n ∈ nodes, b.newer n = false) :
    (∀ e ∈ (runFrom g bs (start nodes tests' s.stamp last')).st.log, ∃ k n, e = .upToDate k n) ∧
      (2 * (todo nodes tests').length < bs.length → ∃ s', runFrom g bs (start nodes tests' s.stamp last') = .returned s') := by
  have hfr := build_fresh g nodes tests stamp last as hn hle s h
  have hf' : Fresh g nodes tests' s.stamp := fun n hm => ⟨(hfr.1 n hm).1, fun k hk hw => (hfr.1 n hm).2 k hk (fun e => ht (hw e))⟩
  have hle' : ∀ n k, s.stamp n k ≤ last' := fun n k => Nat.le_trans (hfr.2 n k) hl
  have ht0 := top_start (g := g) (tests := tests') hn s.stamp last' hle'
  have hq0 : Quiet s.stamp (start nodes tests' s.stamp last') := ⟨rfl, fun _ => rfl, fun e he => (by cases he)⟩
  have hk : ∀ b ∈ bs, Kept g nodes tests' b.newer (Quiet s.stamp) := fun b hbm => quiet_kept g nodes tests' s.stamp hf' b.newer (hb b hbm)
  have hq := kept_runFrom bs hk ht0 hq0
  refine ⟨hq.2.2, ?_⟩
  intro hlen
  cases hr : runFrom g bs (start nodes tests' s.stamp last') with
  | returned s' => exact ⟨s', rfl⟩
  | more s' =>
    exfalso
    have h1 := build_ends g nodes tests' s.stamp last' bs hn hle' s' hr
    have h2 : ∀ (bs : List Answer) (s0 : St), (∀ b ∈ bs, Kept g nodes tests' b.newer (Quiet s.stamp)) → Top g nodes tests' s0 → Quiet s.stamp s0 → idle g bs s0 = 0 := by
      intro bs
      induction bs with
      | nil => intros; rfl
      | cons b bs ih =>
        intro s0 hk t q
        unfold idle
        have hal : anyAlive s0 = false := by
          simp [anyAlive, alive, q.2.1]
        have hcs := iter_cases t b
        have hp := kept_iter (hk b List.mem_cons_self) t q
        cases hi : iter g b s0 with
        | more s1 =>
          rw [hi] at hcs hp
          cases hcs with
          | more _ t1 =>
            simp only [hal, Bool.false_and, Bool.false_eq_true, if_false, Nat.zero_add]
            exact ih s1 (fun c hc => hk c (List.mem_cons_of_mem _ hc)) t1 hp
        | _ => rfl
    rw [h2 bs _ hk ht0 hq0] at h1
    omega
  | failed s' =>
    exfalso
    rw [hr] at hq
    have := (build_fails g nodes tests' s.stamp last' bs hn hle').1 s' hr
    apply this
    intro k n hm
    obtain ⟨_, _, e⟩ := hq.2.2 _ hm
    cases e
  | stuck s' => exact absurd ((build_cycle g nodes tests stamp last as hn hle hc).2 s h) ((build_cycle g nodes tests' s.stamp last' bs hn hle' hc).1 s' hr)
  | internal s' => exact absurd hr ((build_fails g nodes tests' s.stamp last' bs hn hle').2 s')

/-! ## The files -/

theorem set2_other {α : Type} (f : Node → Kind → α) (n : Node) (k : Kind) (v : α) (m : Node) (j : Kind) (h : ¬ (m = n ∧ j = k)) : set2 f n k v m j = f m j := by
  simp [set2, h]

theorem set2_same {α : Type} (f : Node → Kind → α) (n : Node) (k : Kind) (v : α) : set2 f n k v n k = v := by
  simp [set2]

/-- The stamps tell the truth, where what has been built in this run no longer counts as changed. -/
def TInv {α : Type} (g : Graph) (make : Node → List α → α) (partway : Node → α) (c : Files α) (changed : Node → Prop) (s : St) : Prop :=
  Truthful g make (fun n => changed n ∧ s.done n .build = false) s.stamp (files g make partway c s.log)

theorem tinv_kept {α : Type} (g : Graph) (nodes : List Node) (tests : Bool) (make : Node → List α → α) (partway : Node → α) (c : Files α) (changed : Node → Prop)
    (newer : Node → Bool) (hnew : ∀ n ∈ nodes, changed n → newer n = true) : Kept g nodes tests newer (TInv g make partway c changed) := by
  refine ⟨?_, ?_, ?_, ?_, ?_⟩
  · intro s hi hok hr hq
    unfold startBuild
    cases hfd : s.pending.find? fun x => decide (x.2 = .build) && depsInstalled g s x.1 with
    | none => exact hq
    | some x =>
      obtain ⟨n, k⟩ := x
      have hm := List.mem_of_find?_eq_some hfd
      have hp := List.find?_some hfd
      simp only [Bool.and_eq_true, decide_eq_true_eq] at hp
      obtain ⟨rfl, hp⟩ := hp
      have hnm := (hi.pw n .build hm).1
      simp only []
      split
      · -- started: nothing is said about this directory
        have z : set2 s.stamp n .build 0 n .build = 0 := set2_same ..
        have nI : ¬ InstallCurrent (set2 s.stamp n .build 0) n := by
          intro h; have := h.1; rw [z] at this; omega
        have eI : ∀ m, m ≠ n → (InstallCurrent (set2 s.stamp n .build 0) m ↔ InstallCurrent s.stamp m) := by
          intro m hmn
          unfold InstallCurrent
          rw [set2_other _ _ _ _ m .build (fun e => hmn e.1), set2_other _ _ _ _ m .install (fun e => hmn e.1)]
        show Truthful g make (fun m => changed m ∧ s.done m .build = false) (set2 s.stamp n .build 0) (files g make partway c (.start .build n :: s.log))
        refine ⟨?_, ?_⟩
        · intro m hb hd hch
          have hmn : m ≠ n := by
            rintro rfl; have := hb.1; rw [z] at this; omega
          have hb' : BuildCurrent g s.stamp m := by
            unfold BuildCurrent at hb ⊢
            rw [set2_other _ _ _ _ m .build (fun e => hmn e.1)] at hb
            refine ⟨hb.1, fun d hdd => ?_⟩
            have := hb.2 d hdd
            rwa [set2_other _ _ _ _ d .install (fun e => by cases e.2)] at this
          have hd' : ∀ d ∈ g.others m, InstallCurrent s.stamp d := by
            intro d hdd
            have hdn : d ≠ n := by rintro rfl; exact nI (hd d hdd)
            exact (eI d hdn).1 (hd d hdd)
          have := hq.build m hb' hd' hch
          simp only [files]
          rw [if_neg hmn]
          exact this
        · intro m hin
          have hmn : m ≠ n := by rintro rfl; exact nI hin
          have := hq.install m ((eI m hmn).1 hin)
          simp only [files]
          rw [if_neg hmn]
          exact this
      · rename_i ho
        simp only [Bool.or_eq_true, not_or, Bool.not_eq_true] at ho
        have hnc : ¬ changed n := by
          intro hcn
          have := hnew n hnm hcn
          rw [ho.2] at this; cases this
        refine ⟨?_, hq.install⟩
        intro m hb hd hch
        simp only [files]
        by_cases e : m = n
        · subst e
          exact hq.build m hb hd (fun h => hnc h.1)
        · refine hq.build m hb hd (fun h => hch ⟨h.1, ?_⟩)
          show set2 s.done n .build true m .build = false
          rw [set2_other _ _ _ _ _ _ (fun h => e h.1)]
          exact h.2
  · intro s k hk hi hok hr hq
    unfold startWhich
    cases hfd : s.pending.find? fun x => decide (x.2 = k) && s.done x.1 .build with
    | none => exact hq
    | some x =>
      obtain ⟨n, j⟩ := x
      have hm := List.mem_of_find?_eq_some hfd
      have hp := List.find?_some hfd
      simp only [Bool.and_eq_true, decide_eq_true_eq] at hp
      obtain ⟨rfl, hp⟩ := hp
      simp only []
      split
      · rename_i hst
        have hst : s.stamp n j ≤ s.stamp n .build := hst
        cases j with
        | build => exact absurd rfl hk
        | test =>
          exact ⟨fun m hb hd hch => hq.build m hb hd hch, hq.install⟩
        | install =>
          have nI : ¬ InstallCurrent s.stamp n := fun h => by have := h.2; omega
          refine ⟨?_, ?_⟩
          · intro m hb hd hch
            have := hq.build m hb hd hch
            simp only [files]
            rw [this]
            congr 1
            apply List.map_congr_left
            intro d hdd
            have hdn : d ≠ n := by rintro rfl; exact nI (hd d hdd)
            rw [if_neg hdn]
          · intro m hin
            have hmn : m ≠ n := by rintro rfl; exact nI hin
            have := hq.install m hin
            simp only [files]
            rw [if_neg hmn]
            exact this
      · refine ⟨?_, hq.install⟩
        intro m hb hd hch
        refine hq.build m hb hd (fun h => hch ⟨h.1, ?_⟩)
        show set2 s.done n j true m .build = false
        rw [set2_other _ _ _ _ _ _ (fun e => hk e.2.symm)]
        exact h.2
  · intro s k later hi hq
    unfold finish
    cases hr : s.running k with
    | none => exact hq
    | some n =>
      cases he : s.exited k with
      | none => exact hq
      | some b =>
        cases b with
        | false =>
          simp only []
          refine ⟨?_, ?_⟩
          · intro m hb hd hch
            have := hq.build m hb hd hch
            cases k <;> exact this
          · intro m hin
            have := hq.install m hin
            cases k <;> exact this
        | true =>
          simp only [stampNow]
          have hnd : s.done n k = false := by
            cases hd : s.done n k with
            | false => rfl
            | true => exact absurd hr (hi.exD n k hd).2
          cases k with
          | build =>
            have nI : ¬ InstallCurrent (set2 s.stamp n .build (s.last + 1 + later)) n := by
              intro h
              have := h.2
              rw [set2_same, set2_other _ _ _ _ _ _ (fun e => by cases e.2)] at this
              have := hi.le n .install
              omega
            have eI : ∀ m, m ≠ n → (InstallCurrent (set2 s.stamp n .build (s.last + 1 + later)) m ↔ InstallCurrent s.stamp m) := by
              intro m hmn
              unfold InstallCurrent
              rw [set2_other _ _ _ _ m .build (fun e => hmn e.1), set2_other _ _ _ _ m .install (fun e => hmn e.1)]
            show Truthful g make (fun m => changed m ∧ set2 s.done n .build true m .build = false) (set2 s.stamp n .build (s.last + 1 + later)) (files g make partway c (.finish .build n true :: s.log))
            refine ⟨?_, ?_⟩
            · intro m hb hd hch
              by_cases hmn : m = n
              · subst hmn
                simp only [files, if_true]
              · have hb' : BuildCurrent g s.stamp m := by
                  unfold BuildCurrent at hb ⊢
                  rw [set2_other _ _ _ _ m .build (fun e => hmn e.1)] at hb
                  refine ⟨hb.1, fun d hdd => ?_⟩
                  have := hb.2 d hdd
                  rwa [set2_other _ _ _ _ d .install (fun e => by cases e.2)] at this
                have hd' : ∀ d ∈ g.others m, InstallCurrent s.stamp d := by
                  intro d hdd
                  have hdn : d ≠ n := by rintro rfl; exact nI (hd d hdd)
                  exact (eI d hdn).1 (hd d hdd)
                have := hq.build m hb' hd' (fun h => hch ⟨h.1, by
                  show set2 s.done n .build true m .build = false
                  rw [set2_other _ _ _ _ _ _ (fun e => hmn e.1)]
                  exact h.2⟩)
                simp only [files]
                rw [if_neg hmn]
                exact this
            · intro m hin
              have hmn : m ≠ n := by rintro rfl; exact nI hin
              have := hq.install m ((eI m hmn).1 hin)
              simp only [files]
              rw [if_neg hmn]
              exact this
          | install =>
            have hbb : ∀ m, set2 s.stamp n .install (s.last + 1 + later) m .build = s.stamp m .build := by
              intro m
              exact set2_other _ _ _ _ _ _ (fun e => by cases e.2)
            show Truthful g make (fun m => changed m ∧ set2 s.done n .install true m .build = false) (set2 s.stamp n .install (s.last + 1 + later)) (files g make partway c (.finish .install n true :: s.log))
            refine ⟨?_, ?_⟩
            · intro m hb hd hch
              have hno : n ∉ g.others m := by
                intro hmem
                have := hb.2 n hmem
                rw [set2_same, hbb] at this
                have := hi.le m .build
                omega
              have hoth : ∀ d ∈ g.others m, d ≠ n := by rintro d hdd rfl; exact hno hdd
              have hb' : BuildCurrent g s.stamp m := by
                refine ⟨by have := hb.1; rwa [hbb] at this, fun d hdd => ?_⟩
                have := hb.2 d hdd
                rwa [set2_other _ _ _ _ _ _ (fun e => hoth d hdd e.1), hbb] at this
              have hd' : ∀ d ∈ g.others m, InstallCurrent s.stamp d := by
                intro d hdd
                have := hd d hdd
                unfold InstallCurrent at this ⊢
                rwa [set2_other _ _ _ _ _ .install (fun e => hoth d hdd e.1), hbb] at this
              have := hq.build m hb' hd' (fun h => hch ⟨h.1, by
                show set2 s.done n .install true m .build = false
                rw [set2_other _ _ _ _ _ _ (fun e => by cases e.2)]
                exact h.2⟩)
              simp only [files]
              rw [this]
              congr 1
              apply List.map_congr_left
              intro d hdd
              rw [if_neg (hoth d hdd)]
            · intro m hin
              simp only [files]
              by_cases hmn : m = n
              · rw [if_pos hmn, hmn]
              · rw [if_neg hmn]
                refine hq.install m ?_
                unfold InstallCurrent at hin ⊢
                rwa [set2_other _ _ _ _ _ .install (fun e => hmn e.1), hbb] at hin
          | test =>
            have hbb : ∀ m j, j ≠ .test → set2 s.stamp n .test (s.last + 1 + later) m j = s.stamp m j := by
              intro m j hj
              exact set2_other _ _ _ _ _ _ (fun e => hj e.2)
            have eI : ∀ m, (InstallCurrent (set2 s.stamp n .test (s.last + 1 + later)) m ↔ InstallCurrent s.stamp m) := by
              intro m
              unfold InstallCurrent
              rw [hbb _ _ (by decide), hbb _ _ (by decide)]
            show Truthful g make (fun m => changed m ∧ set2 s.done n .test true m .build = false) (set2 s.stamp n .test (s.last + 1 + later)) (files g make partway c (.finish .test n true :: s.log))
            refine ⟨?_, ?_⟩
            · intro m hb hd hch
              have hb' : BuildCurrent g s.stamp m := by
                refine ⟨by have := hb.1; rwa [hbb _ _ (by decide)] at this, fun d hdd => ?_⟩
                have := hb.2 d hdd
                rwa [hbb _ _ (by decide), hbb _ _ (by decide)] at this
              exact hq.build m hb' (fun d hdd => (eI d).1 (hd d hdd)) (fun h => hch ⟨h.1, by
                show set2 s.done n .test true m .build = false
                rw [set2_other _ _ _ _ _ _ (fun e => by cases e.2)]
                exact h.2⟩)
            · intro m hin
              exact hq.install m ((eI m).1 hin)
  · intro s r hq; exact hq
  · intro s p hq; exact hq

/-- C163: if the stamps tell the truth about the files at the beginning, and `dbpFindOld` finds the changed sources, then the stamps tell the truth at any time afterwards, whatever fails; and when it returns, every directory has been built from its source and from what is installed of its dependencies, and what has been built is installed. -/
theorem build_files {α : Type} (g : Graph) (nodes : List Node) (tests : Bool) (stamp : Node → Kind → Nat) (last : Nat) (as : List Answer) (hn : nodes.Nodup) (hle : ∀ n k, stamp n k ≤ last)
    (hc : Closed g nodes) (make : Node → List α → α) (partway : Node → α) (c : Files α) (changed : Node → Prop) (ht : Truthful g make changed stamp c)
    (hnew : ∀ a ∈ as, ∀ n ∈ nodes, changed n → a.newer n = true) :
    (Truthful g make (fun n => changed n ∧ ¬ Done (runFrom g as (start nodes tests stamp last)).st.log n .build) (runFrom g as (start nodes tests stamp last)).st.stamp
        (files g make partway c (runFrom g as (start nodes tests stamp last)).st.log)) ∧
      ∀ s, runFrom g as (start nodes tests stamp last) = .returned s → ∀ n ∈ nodes,
        (files g make partway c s.log).built n = make n ((g.others n).map (files g make partway c s.log).installed) ∧
          (files g make partway c s.log).installed n = (files g make partway c s.log).built n := by
  have t0 := top_start (g := g) (tests := tests) hn stamp last hle
  have p0 : TInv g make partway c changed (start nodes tests stamp last) := ⟨fun n h1 h2 h3 => ht.build n h1 h2 (fun h => h3 ⟨h, rfl⟩), ht.install⟩
  have hk := kept_runFrom as (fun a ha => tinv_kept g nodes tests make partway c changed a.newer (hnew a ha)) t0 p0
  have hi := inv_runFrom as t0
  refine ⟨⟨fun n h1 h2 h3 => hk.build n h1 h2 (fun h => h3 ⟨h.1, fun hd => ?_⟩), hk.install⟩, ?_⟩
  · have := (hi.logD n .build).2 hd
    rw [this] at h; exact absurd h.2 (by decide)
  · intro s hr n hm
    have hd := (build_returns g nodes tests stamp last as hn hle s hr).1
    have hf := (build_fresh g nodes tests stamp last as hn hle s hr).1
    rw [hr] at hk hi
    have hk : TInv g make partway c changed s := hk
    have hi : Inv g nodes tests s := hi
    have hin : ∀ m ∈ nodes, InstallCurrent s.stamp m := fun m hmm => ⟨(hf m hmm).1.1, (hf m hmm).2 .install (by decide) (by intro e; cases e)⟩
    refine ⟨hk.build n (hf n hm).1 (fun d hdd => hin d (hc n hm d hdd)) ?_, hk.install n (hin n hm)⟩
    rintro ⟨_, h⟩
    have := (hi.logD n .build).2 (hd n hm .build (by intro e; cases e))
    rw [this] at h; cases h

/-- C163: two runs that return leave the same files, whatever was there before (in particular, as if nothing had been built before). -/
theorem build_as_clean {α : Type} (g : Graph) (nodes : List Node) (tests₁ tests₂ : Bool) (stamp₁ stamp₂ : Node → Kind → Nat) (last₁ last₂ : Nat) (as₁ as₂ : List Answer) (hn : nodes.Nodup)
    (hle₁ : ∀ n k, stamp₁ n k ≤ last₁) (hle₂ : ∀ n k, stamp₂ n k ≤ last₂) (hc : Closed g nodes) (make : Node → List α → α) (partway : Node → α) (c₁ c₂ : Files α)
    (changed₁ changed₂ : Node → Prop) (ht₁ : Truthful g make changed₁ stamp₁ c₁) (ht₂ : Truthful g make changed₂ stamp₂ c₂)
    (hnew₁ : ∀ a ∈ as₁, ∀ n ∈ nodes, changed₁ n → a.newer n = true) (hnew₂ : ∀ a ∈ as₂, ∀ n ∈ nodes, changed₂ n → a.newer n = true)
    (s₁ s₂ : St) (h₁ : runFrom g as₁ (start nodes tests₁ stamp₁ last₁) = .returned s₁) (h₂ : runFrom g as₂ (start nodes tests₂ stamp₂ last₂) = .returned s₂) :
    ∀ n ∈ nodes, (files g make partway c₁ s₁.log).built n = (files g make partway c₂ s₂.log).built n ∧
      (files g make partway c₁ s₁.log).installed n = (files g make partway c₂ s₂.log).installed n := by
  have f₁ := (build_files g nodes tests₁ stamp₁ last₁ as₁ hn hle₁ hc make partway c₁ changed₁ ht₁ hnew₁).2 s₁ h₁
  have f₂ := (build_files g nodes tests₂ stamp₂ last₂ as₂ hn hle₂ hc make partway c₂ changed₂ ht₂ hnew₂).2 s₂ h₂
  obtain ⟨rank, hrank⟩ := (build_cycle g nodes tests₁ stamp₁ last₁ as₁ hn hle₁ hc).2 s₁ h₁
  have key : ∀ r n, rank n ≤ r → n ∈ nodes → (files g make partway c₁ s₁.log).built n = (files g make partway c₂ s₂.log).built n ∧
      (files g make partway c₁ s₁.log).installed n = (files g make partway c₂ s₂.log).installed n := by
    intro r
    induction r with
    | zero =>
      intro n hr hm
      have e : g.others n = [] := by
        cases h : g.others n with
        | nil => rfl
        | cons d ds =>
          have := hrank n hm d (by rw [h]; exact List.mem_cons_self)
          omega
      have b : (files g make partway c₁ s₁.log).built n = (files g make partway c₂ s₂.log).built n := by
        rw [(f₁ n hm).1, (f₂ n hm).1, e]; rfl
      exact ⟨b, by rw [(f₁ n hm).2, (f₂ n hm).2, b]⟩
    | succ r ih =>
      intro n hr hm
      have b : (files g make partway c₁ s₁.log).built n = (files g make partway c₂ s₂.log).built n := by
        rw [(f₁ n hm).1, (f₂ n hm).1]
        congr 1
        apply List.map_congr_left
        intro d hdd
        have := hrank n hm d hdd
        exact (ih d (by omega) (hc n hm d hdd)).2
      exact ⟨b, by rw [(f₁ n hm).2, (f₂ n hm).2, b]⟩
  exact fun n hm => key _ n (Nat.le_refl _) hm

/-! ## Concrete cases -/

/-- Directory 0 needs 1, 1 needs 2; 3 is another build of the source of 0. -/
def g4 : Graph := { deps := fun n => if n = 0 then [1, 3] else if n = 1 then [2] else [], src := fun n => if n = 3 then 0 else n }

def allEnd (b : Bool) : Answer := { newer := fun _ => false, reaped := fun _ => some b, later := fun _ => 0 }

def Out.code : Out → Nat × List Ev
  | .more s => (0, s.log) | .returned s => (1, s.log) | .failed s => (2, s.log) | .stuck s => (3, s.log) | .internal s => (4, s.log)

/-- All is built, in an order that respects the dependencies. -/
example : (runFrom g4 (List.replicate 20 (allEnd true)) (start [2, 1, 0] false (fun _ _ => 0) 100)).code =
    (1, [.finish .install 0 true, .start .install 0, .finish .build 0 true, .start .build 0, .finish .install 1 true, .start .install 1, .finish .build 1 true, .start .build 1,
      .finish .install 2 true, .start .install 2, .finish .build 2 true, .start .build 2]) := by decide +kernel

example : (runFrom g4 (List.replicate 20 (allEnd false)) (start [2, 1, 0] false (fun _ _ => 0) 100)).code = (2, [.finish .build 2 false, .start .build 2]) := by decide +kernel

/-- C160, what is missing: with a stamp from the future (here the clock is at 100 and an install stamp says 200) the program dies with "internal error" after a build although nothing has failed. -/
theorem build_future_false : ∃ (g : Graph) (nodes : List Node) (stamp : Node → Kind → Nat) (last : Nat) (as : List Answer) (s : St),
    nodes.Nodup ∧ Closed g nodes ∧ Acyclic g nodes ∧ runFrom g as (start nodes false stamp last) = .internal s ∧ AllWell s.log := by
  have e : (runFrom g4 (List.replicate 20 (allEnd true)) (start [2, 1] false (fun n k => if n = 2 then (if k = .install then 200 else 150) else 0) 100)).code =
      (4, [.finish .build 1 true, .start .build 1, .upToDate .install 2, .upToDate .build 2]) := by decide +kernel
  cases ho : runFrom g4 (List.replicate 20 (allEnd true)) (start [2, 1] false (fun n k => if n = 2 then (if k = .install then 200 else 150) else 0) 100) with
  | internal s =>
    rw [ho] at e
    refine ⟨g4, [2, 1], _, 100, _, s, by decide, ?_, ⟨fun n => 3 - n, ?_⟩, ho, ?_⟩
    · unfold Closed; decide +kernel
    · show ∀ n ∈ [2, 1], ∀ d ∈ g4.others n, 3 - d < 3 - n
      decide +kernel
    · rw [(Prod.mk.inj e).2]
      intro k n h
      simp at h
  | _ => rw [ho] at e; exact absurd (Prod.mk.inj e).1 (by decide)

/-- A cycle. -/
example : (runFrom { deps := fun n => [1 - n], src := id } (List.replicate 20 (allEnd true)) (start [0, 1] false (fun _ _ => 0) 100)).code = (3, []) := by decide +kernel

example : Closed g4 [3, 2, 1, 0] ∧ Acyclic g4 [3, 2, 1, 0] := by
  refine ⟨?_, fun n => 3 - n, ?_⟩
  · unfold Closed; decide +kernel
  · show ∀ n ∈ [3, 2, 1, 0], ∀ d ∈ g4.others n, 3 - d < 3 - n
    decide +kernel

/-- A truthful state: nothing has been built. -/
example (c : Files Nat) (make : Node → List Nat → Nat) : Truthful g4 make (fun _ => False) (fun _ _ => 0) c :=
  ⟨fun n h => absurd h.1 (Nat.lt_irrefl 0), fun n h => absurd h.1 (Nat.lt_irrefl 0)⟩

end Verif.Deptool
