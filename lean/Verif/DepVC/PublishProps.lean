import Verif.DepVC.Publish

/-! # C193: what deptool publish pushes has been tested -/

namespace Verif.DepVC

/-- Nobody edits files while the program runs. -/
def Still (env : Env) : Prop := ∀ n p, env.edit n p = none

/-- The last check of all projects. -/
def latest : List Ev → Option ((Proj → Tree) × Bool)
  | [] => none
  | .verify files tests :: _ => some (files, tests)
  | _ :: l => latest l

/-- What is pushed has the files with which the last build and test before ended well. -/
def Vetted : List Ev → Prop
  | [] => True
  | .push _ p c :: l => (∃ files, latest l = some (files, true) ∧ files p = c.tree) ∧ Vetted l
  | _ :: l => Vetted l

def Clean (s : St) (p : Proj) : Prop := s.work p = (s.head p).tree

theorem dirty_false {s : St} {p : Proj} (h : Clean s p) : dirty s p = false := by
  unfold dirty; simp only [decide_eq_false_iff_not, ne_eq, Decidable.not_not]; exact h

theorem clean_of {s : St} {p : Proj} (h : dirty s p = false) : Clean s p := by
  unfold dirty at h; simp only [decide_eq_false_iff_not, ne_eq, Decidable.not_not] at h; exact h

theorem tick_still {env : Env} (h : Still env) (s : St) : tick env s = { s with now := s.now + 1 } := by
  unfold tick
  have : (fun p => (env.edit (s.now + 1) p).getD (s.work p)) = s.work := by
    funext p; rw [h]; rfl
  rw [this]

/-- Two states that agree but for the project `p`. -/
structure Beside (p : Proj) (s t : St) : Prop where
  head : ∀ q, q ≠ p → t.head q = s.head q
  work : ∀ q, q ≠ p → t.work q = s.work q

theorem Beside.refl (p : Proj) (s : St) : Beside p s s := ⟨fun _ _ => rfl, fun _ _ => rfl⟩

theorem Beside.trans {p : Proj} {s t u : St} (a : Beside p s t) (b : Beside p t u) : Beside p s u :=
  ⟨fun q hq => (b.head q hq).trans (a.head q hq), fun q hq => (b.work q hq).trans (a.work q hq)⟩

theorem Beside.clean {p : Proj} {s t : St} (a : Beside p s t) {q : Proj} (hq : q ≠ p) (h : Clean s q) : Clean t q := by
  unfold Clean; rw [a.head q hq, a.work q hq]; exact h

theorem tick_beside {env : Env} (hs : Still env) (p : Proj) (s : St) : Beside p s (tick env s) := by
  rw [tick_still hs]; exact ⟨fun _ _ => rfl, fun _ _ => rfl⟩

theorem verify_ok {env : Env} (hs : Still env) (tests : Bool) (s : St) :
    (verify env tests s).1.head = s.head ∧ (verify env tests s).1.work = s.work ∧ (verify env tests s).1.made = s.made ∧
      (Vetted s.log → Vetted (verify env tests s).1.log) ∧
      ((verify env tests s).2 = true → latest (verify env tests s).1.log = some (s.work, tests)) := by
  unfold verify
  rw [tick_still hs]
  simp only
  split
  · exact ⟨rfl, rfl, rfl, fun h => h, fun _ => rfl⟩
  · exact ⟨rfl, rfl, rfl, fun h => h, fun h => by cases h⟩

theorem afterCommit_ok {env : Env} (hs : Still env) (p : Proj) (s : St) :
    ∃ t, afterCommit env p s = (t, .done) ∧ Beside p s t ∧ Clean t p ∧ (Vetted s.log → Vetted t.log) := by
  unfold afterCommit
  simp only [tick_still hs]
  have hc : Clean { s with now := s.now + 1, head := upd s.head p ⟨s.now, s.work p⟩, log := .commit p ⟨s.now, s.work p⟩ :: s.log } p := by
    unfold Clean upd; simp
  simp only [dirty_false hc]
  refine ⟨_, rfl, ⟨fun q hq => ?_, fun _ _ => rfl⟩, hc, fun h => h⟩
  simp [upd, hq]

theorem tryCommit_ok {env : Env} (hs : Still env) (p : Proj) (s : St) :
    Beside p s (tryCommit env p s).1 ∧ (Vetted s.log → Vetted (tryCommit env p s).1.log) ∧
      ((∃ t, tryCommit env p s = (t, .done) ∧ Clean t p) ∨ (∃ t, tryCommit env p s = (t, .again)) ∨ (∃ t, tryCommit env p s = (t, .die))) := by
  unfold tryCommit
  simp only
  have hb := tick_beside hs p s
  have hl : (tick env s).log = s.log := by rw [tick_still hs]
  split
  · obtain ⟨t, e, b, c, v⟩ := afterCommit_ok hs p (tick env s)
    rw [e]
    rw [hl] at v
    exact ⟨hb.trans b, v, Or.inl ⟨t, rfl, c⟩⟩
  · refine ⟨hb, fun h => by rw [hl]; exact h, ?_⟩
    split
    · exact Or.inr (Or.inl ⟨_, rfl⟩)
    · exact Or.inr (Or.inr ⟨_, rfl⟩)

theorem commitOne_ok {env : Env} (hs : Still env) (tests : Bool) (p : Proj) : ∀ (f : Nat) (s : St),
    Beside p s (commitOne env tests p f s).1 ∧ (Vetted s.log → Vetted (commitOne env tests p f s).1.log) ∧
      ((commitOne env tests p f s).2 = true → Clean (commitOne env tests p f s).1 p) := by
  intro f
  induction f with
  | zero => intro s; exact ⟨Beside.refl p s, fun h => h, fun h => by cases h⟩
  | succ f ih =>
    intro s
    unfold commitOne
    simp only
    have hb := tick_beside hs p s
    have hl : (tick env s).log = s.log := by rw [tick_still hs]
    cases hd : dirty (tick env s) p with
    | false =>
      simp only [Bool.false_eq_true, if_false]
      exact ⟨hb, fun h => by rw [hl]; exact h, fun _ => clean_of hd⟩
    | true =>
      simp only [if_true]
      obtain ⟨v1, v2, _, v3, _⟩ := verify_ok hs tests (tick env s)
      cases hv : verify env tests (tick env s) with
      | mk s2 b =>
        rw [hv] at v1 v2 v3
        simp only at v1 v2 v3
        rw [hl] at v3
        have hb2 : Beside p s s2 := hb.trans ⟨fun q _ => by rw [v1], fun q _ => by rw [v2]⟩
        cases b with
        | false => exact ⟨hb2, v3, fun h => by cases h⟩
        | true =>
          simp only
          obtain ⟨t1, t2, t3⟩ := tryCommit_ok hs p s2
          rcases t3 with ⟨t, e, c⟩ | ⟨t, e⟩ | ⟨t, e⟩
          · rw [e] at t1 t2 ⊢
            exact ⟨hb2.trans t1, fun h => t2 (v3 h), fun _ => c⟩
          · rw [e] at t1 t2 ⊢
            obtain ⟨i1, i2, i3⟩ := ih t
            exact ⟨(hb2.trans t1).trans i1, fun h => i2 (t2 (v3 h)), i3⟩
          · rw [e] at t1 t2 ⊢
            exact ⟨hb2.trans t1, fun h => t2 (v3 h), fun h => by cases h⟩

/-- With nothing to commit nothing happens. -/
theorem commitOne_clean {env : Env} (hs : Still env) (tests : Bool) (p : Proj) (f : Nat) (s : St) (h : Clean s p) :
    (commitOne env tests p f s).1.head = s.head ∧ (commitOne env tests p f s).1.work = s.work ∧
      (commitOne env tests p f s).1.made = s.made ∧ (commitOne env tests p f s).1.log = s.log := by
  cases f with
  | zero => exact ⟨rfl, rfl, rfl, rfl⟩
  | succ f =>
    unfold commitOne
    have hc : Clean (tick env s) p := by rw [tick_still hs]; exact h
    simp only [dirty_false hc, Bool.false_eq_true, if_false]
    rw [tick_still hs]
    exact ⟨rfl, rfl, rfl, rfl⟩

theorem pull_ok {env : Env} (hs : Still env) (p : Proj) (s : St) (h : Clean s p) :
    Beside p s (pull env p s).1 ∧ Clean (pull env p s).1 p ∧ (Vetted s.log → Vetted (pull env p s).1.log) ∧
      latest (pull env p s).1.log = latest s.log ∧
      ((pull env p s).1.made = false → s.made = false ∧ (pull env p s).1.head p = s.head p) := by
  unfold pull
  rw [tick_still hs]
  simp only
  split
  · exact ⟨⟨fun _ _ => rfl, fun _ _ => rfl⟩, h, fun h => h, rfl, fun hm => ⟨hm, rfl⟩⟩
  · exact ⟨⟨fun _ _ => rfl, fun _ _ => rfl⟩, h, fun h => h, rfl, fun hm => ⟨hm, rfl⟩⟩
  · rename_i c _
    have hd : dirty { s with now := s.now + 1 } p = false := dirty_false h
    refine ⟨⟨fun q hq => by simp [upd, hq], fun q hq => by simp [upd, hq]⟩, ?_, fun h => h, rfl, ?_⟩
    · unfold Clean; simp [upd, hd]
    · intro hm
      simp only [Bool.or_eq_false_iff, decide_eq_false_iff_not, ne_eq, Decidable.not_not] at hm
      exact ⟨hm.1, by simp [upd, hm.2]⟩

/-- What holds while the pulls go on: `files` were the last ones tested, and as long as no head changed they are those of the heads. -/
structure Pulling (ps : List Proj) (files : Proj → Tree) (s : St) : Prop where
  clean : ∀ p ∈ ps, Clean s p
  vetted : Vetted s.log
  last : latest s.log = some (files, true)
  same : s.made = false → ∀ p ∈ ps, files p = (s.head p).tree

theorem pullOne_ok {env : Env} (hs : Still env) (fuel : Nat) {ps : List Proj} {files : Proj → Tree} {s : St} (h : Pulling ps files s) {p : Proj} (hp : p ∈ ps) :
    Pulling ps files (pullOne env fuel p s).1 := by
  obtain ⟨c1, c2, c3, c4⟩ := commitOne_clean hs true p fuel s (h.clean p hp)
  unfold pullOne
  cases hc : commitOne env true p fuel s with
  | mk s1 b =>
    rw [hc] at c1 c2 c3 c4
    simp only at c1 c2 c3 c4
    have h1 : Pulling ps files s1 :=
      ⟨fun q hq => by unfold Clean; rw [c1, c2]; exact h.clean q hq, by rw [c4]; exact h.vetted, by rw [c4]; exact h.last,
        fun hm q hq => by rw [c1]; exact h.same (c3 ▸ hm) q hq⟩
    cases b with
    | false => exact h1
    | true =>
      simp only
      obtain ⟨p1, p2, p3, p4, p5⟩ := pull_ok hs p s1 (h1.clean p hp)
      refine ⟨fun q hq => ?_, p3 h1.vetted, p4.trans h1.last, fun hm q hq => ?_⟩
      · by_cases hqp : q = p
        · subst hqp; exact p2
        · exact p1.clean hqp (h1.clean q hq)
      · obtain ⟨m1, m2⟩ := p5 hm
        by_cases hqp : q = p
        · subst hqp; rw [m2]; exact h1.same m1 q hq
        · rw [p1.head q hqp]; exact h1.same m1 q hq

theorem pullWalk_ok {env : Env} (hs : Still env) (fuel : Nat) {ps : List Proj} {files : Proj → Tree} : ∀ (qs : List Proj) (s : St), (∀ q ∈ qs, q ∈ ps) → Pulling ps files s →
    Pulling ps files (walk (pullOne env fuel) qs s).1 := by
  intro qs
  induction qs with
  | nil => intro s _ h; exact h
  | cons q qs ih =>
    intro s hq h
    have h1 := pullOne_ok hs fuel h (hq q (List.mem_cons_self ..))
    unfold walk
    cases e : pullOne env fuel q s with
    | mk s1 b =>
      rw [e] at h1
      cases b with
      | false => exact h1
      | true => exact ih s1 (fun x hx => hq x (List.mem_cons_of_mem _ hx)) h1

/-- What holds while the pushes go on: the projects `qs` still to come have the tested files. -/
structure Pushing (ps qs : List Proj) (files : Proj → Tree) (s : St) : Prop where
  clean : ∀ p ∈ ps, Clean s p
  vetted : Vetted s.log
  last : latest s.log = some (files, true)
  same : ∀ q ∈ qs, files q = (s.head q).tree

theorem tryPush_ok {env : Env} (hs : Still env) (r : Remote) {ps qs : List Proj} {files : Proj → Tree} {s : St} {p : Proj} (h : Pushing ps (p :: qs) files s) :
    Pushing ps (p :: qs) files (tryPush env r p s).1 := by
  unfold tryPush
  rw [tick_still hs]
  simp only
  split
  · exact ⟨h.clean, ⟨⟨files, h.last, h.same p (List.mem_cons_self ..)⟩, h.vetted⟩, h.last, h.same⟩
  · exact ⟨h.clean, h.vetted, h.last, h.same⟩

theorem syncPull_ok {env : Env} (hs : Still env) {ps qs : List Proj} {files : Proj → Tree} {s : St} {p : Proj} (hp : p ∈ ps) (hn : p ∉ qs) (h : Pushing ps (p :: qs) files s) :
    Pushing ps qs files (syncPull env p s).1 := by
  obtain ⟨p1, p2, p3, p4, _⟩ := pull_ok hs p s (h.clean p hp)
  have : Pushing ps qs files (pull env p s).1 := by
    refine ⟨fun q hq => ?_, p3 h.vetted, p4.trans h.last, fun q hq => ?_⟩
    · by_cases hqp : q = p
      · subst hqp; exact p2
      · exact p1.clean hqp (h.clean q hq)
    · have hqp : q ≠ p := fun e => hn (e ▸ hq)
      rw [p1.head q hqp]; exact h.same q (List.mem_cons_of_mem _ hq)
  unfold syncPull
  cases e : pull env p s with
  | mk s1 b =>
    rw [e] at this
    cases b <;> exact this

theorem syncOne_ok {env : Env} (hs : Still env) {ps qs : List Proj} {files : Proj → Tree} {s : St} {p : Proj} (hp : p ∈ ps) (hn : p ∉ qs) (h : Pushing ps (p :: qs) files s) :
    Pushing ps qs files (syncOne env p s).1 := by
  unfold syncOne
  have h1 := tryPush_ok hs .localCache h
  cases e : tryPush env .localCache p s with
  | mk s1 b =>
    rw [e] at h1
    cases b with
    | false => exact syncPull_ok hs hp hn h1
    | true =>
      simp only
      have h2 := tryPush_ok hs .origin h1
      simp only at h2
      cases e2 : tryPush env .origin p s1 with
      | mk s2 b2 =>
        rw [e2] at h2
        cases b2 with
        | false => exact syncPull_ok hs hp hn h2
        | true => exact ⟨h2.clean, h2.vetted, h2.last, fun q hq => h2.same q (List.mem_cons_of_mem _ hq)⟩

theorem syncWalk_ok {env : Env} (hs : Still env) {ps : List Proj} {files : Proj → Tree} : ∀ (qs : List Proj) (s : St), qs.Nodup → (∀ q ∈ qs, q ∈ ps) → Pushing ps qs files s →
    ∃ rs, Pushing ps rs files (walk (syncOne env) qs s).1 := by
  intro qs
  induction qs with
  | nil => intro s _ _ h; exact ⟨[], h⟩
  | cons q qs ih =>
    intro s hn hq h
    have h1 := syncOne_ok hs (hq q (List.mem_cons_self ..)) (List.nodup_cons.mp hn).1 h
    unfold walk
    cases e : syncOne env q s with
    | mk s1 b =>
      rw [e] at h1
      cases b with
      | false => exact ⟨qs, h1⟩
      | true => exact ih s1 (List.nodup_cons.mp hn).2 (fun x hx => hq x (List.mem_cons_of_mem _ hx)) h1

theorem publishLoop_ok {env : Env} (hs : Still env) {ps : List Proj} (hn : ps.Nodup) (fuel : Nat) : ∀ (n : Nat) (s : St), (∀ p ∈ ps, Clean s p) → Vetted s.log →
    Vetted (publishLoop env true ps fuel n s).1.log := by
  intro n
  induction n with
  | zero => intro s _ h; exact h
  | succ n ih =>
    intro s hc hv
    unfold publishLoop
    obtain ⟨v1, v2, v3, v4, v5⟩ := verify_ok hs true { s with made := false }
    cases e : verify env true { s with made := false } with
    | mk s1 b =>
      rw [e] at v1 v2 v3 v4 v5
      simp only at v1 v2 v3 v4 v5
      cases b with
      | false => exact v4 hv
      | true =>
        simp only
        have hP : Pulling ps s.work s1 :=
          ⟨fun p hp => by unfold Clean; rw [v1, v2]; exact hc p hp, v4 hv, v5 rfl, fun _ p hp => by rw [v1]; exact hc p hp⟩
        have hW := pullWalk_ok hs fuel ps s1 (fun _ h => h) hP
        cases e2 : walk (pullOne env fuel) ps s1 with
        | mk s2 b2 =>
          rw [e2] at hW
          cases b2 with
          | false => exact hW.vetted
          | true =>
            simp only
            cases hm : s2.made with
            | true => simp only [if_true]; exact ih s2 hW.clean hW.vetted
            | false =>
              simp only [Bool.false_eq_true, if_false]
              obtain ⟨rs, hS⟩ := syncWalk_ok hs ps s2 hn (fun _ h => h) ⟨hW.clean, hW.vetted, hW.last, hW.same hm⟩
              cases e3 : walk (syncOne env) ps s2 with
              | mk s3 b3 =>
                rw [e3] at hS
                cases b3 with
                | false => exact hS.vetted
                | true =>
                  simp only
                  split
                  · exact ih s3 hS.clean hS.vetted
                  · exact hS.vetted

theorem commitWalk_ok {env : Env} (hs : Still env) (tests : Bool) (fuel : Nat) : ∀ (qs : List Proj) (s : St) (done : List Proj), Vetted s.log → (∀ p ∈ done, Clean s p) →
    Vetted (walk (fun p => commitOne env tests p fuel) qs s).1.log ∧
      ((walk (fun p => commitOne env tests p fuel) qs s).2 = true → ∀ p, p ∈ done ∨ p ∈ qs → Clean (walk (fun p => commitOne env tests p fuel) qs s).1 p) := by
  intro qs
  induction qs with
  | nil => intro s done h hd; exact ⟨h, fun _ p hp => hp.elim (hd p) (fun h => by cases h)⟩
  | cons q qs ih =>
    intro s done h hd
    obtain ⟨c1, c2, c3⟩ := commitOne_ok hs tests q fuel s
    unfold walk
    cases e : commitOne env tests q fuel s with
    | mk s1 b =>
      rw [e] at c1 c2 c3
      simp only at c1 c2 c3
      cases b with
      | false => exact ⟨c2 h, fun h => by cases h⟩
      | true =>
        simp only
        have hd1 : ∀ p ∈ q :: done, Clean s1 p := by
          intro p hp
          by_cases hpq : p = q
          · subst hpq; exact c3 rfl
          · exact c1.clean hpq (hd p ((List.mem_cons.mp hp).resolve_left hpq))
        obtain ⟨i1, i2⟩ := ih s1 (q :: done) (c2 h) hd1
        refine ⟨i1, fun hb p hp => i2 hb p ?_⟩
        rcases hp with hp | hp
        · exact Or.inl (List.mem_cons_of_mem _ hp)
        · rcases List.mem_cons.mp hp with rfl | hp
          · exact Or.inl (List.mem_cons_self ..)
          · exact Or.inr hp

/-- C193: if nobody edits files while `publish` runs, then whatever it pushes, to either place and however often tests fail, pushes are refused and others push meanwhile, has exactly the files with which the last build and test before ended well; whatever was committed or not before. -/
theorem publish_partial (env : Env) (hs : Still env) (untested : Bool) (ps : List Proj) (hn : ps.Nodup) (fuel : Nat) (s : St) (h0 : s.log = []) :
    Vetted (publish env true untested ps fuel s).1.log := by
  unfold publish
  simp only [Bool.not_true, Bool.false_and, Bool.false_eq_true, if_false]
  unfold commitAll
  obtain ⟨_, _, _, v4, _⟩ := verify_ok hs true s
  cases e : verify env true s with
  | mk s1 b =>
    rw [e] at v4
    simp only at v4
    have hv : Vetted s1.log := v4 (by rw [h0]; trivial)
    cases b with
    | false => exact hv
    | true =>
      simp only
      obtain ⟨w1, w2⟩ := commitWalk_ok hs true fuel ps s1 [] hv (fun _ h => by cases h)
      cases e2 : walk (fun p => commitOne env true p fuel) ps s1 with
      | mk s2 b2 =>
        rw [e2] at w1 w2
        cases b2 with
        | false => exact w1
        | true => exact publishLoop_ok hs hn fuel fuel s2 (fun p hp => w2 rfl p (Or.inr hp)) w1

/-- Only the pushes of a log. -/
def pushes : List Ev → List (Remote × Proj × Commit)
  | [] => []
  | .push r p c :: l => (r, p, c) :: pushes l
  | _ :: l => pushes l

def calm : Env := { edit := fun _ _ => none, passes := fun _ => true, commits := fun _ => true, merge := fun _ => some none, mixed := fun _ => 0, push := fun _ _ => true }

/-- Two projects, the first with changes; somebody else had pushed to the second. -/
def start2 : St := { now := 0, head := fun _ => ⟨0, 5⟩, work := fun p => if p = 0 then 6 else 5, made := false, log := [] }

def busy : Env := { calm with merge := fun n => if n = 11 then some (some ⟨100, 7⟩) else some none }

/-- The hypotheses can be met by a run that commits, merges and pushes. -/
example : Still busy ∧ (publish busy true false [0, 1] 5 start2).2 = true ∧
    pushes (publish busy true false [0, 1] 5 start2).1.log =
      [(.origin, 1, ⟨100, 7⟩), (.localCache, 1, ⟨100, 7⟩), (.origin, 0, ⟨4, 6⟩), (.localCache, 0, ⟨4, 6⟩)] :=
  ⟨fun _ _ => rfl, by decide +kernel, by decide +kernel⟩

/-- What the property asks of all runs. -/
def PushesTested (ps : List Proj) (env : Env) (tests untested : Bool) (fuel : Nat) (s : St) : Prop := s.log = [] → ps.Nodup → Vetted (publish env tests untested ps fuel s).1.log

/-- Somebody edits a file while the program runs (step 4, before the check for changes), and again after the tests that follow and before the commit. -/
def late : Env := { calm with edit := fun n _ => if n = 4 then some 66 else if n = 6 then some 67 else none }

theorem not_vetted {r : Remote} {p : Proj} {c : Commit} {l : List Ev} (h : (latest l).map (fun x => decide (x.1 p = c.tree) && x.2) = some false) : ¬ Vetted (.push r p c :: l) := by
  rintro ⟨⟨f, hf, hp⟩, _⟩
  rw [hf] at h
  simp [hp] at h

def start1 : St := { now := 0, head := fun _ => ⟨0, 5⟩, work := fun _ => 5, made := false, log := [] }

/-- C193, false of the code: changes made while `publish` runs are committed with what was tested, and pushed untested; the pull that comes after the commit does not count them. -/
theorem publish_edit_false : ∃ env ps fuel s, ¬ PushesTested ps env true false fuel s ∧
    pushes (publish env true false ps fuel s).1.log = [(.origin, 0, ⟨6, 67⟩), (.localCache, 0, ⟨6, 67⟩)] ∧ ∀ n p, 6 < n → env.edit n p = none := by
  refine ⟨late, [0], 5, start1, ?_, by decide +kernel, ?_⟩
  · intro h
    have := h rfl (by decide)
    revert this
    have e : (publish late true false [0] 5 start1).1.log = .push .origin 0 ⟨6, 67⟩ :: (publish late true false [0] 5 start1).1.log.tail := by
      rfl
    rw [e]
    exact not_vetted (by decide +kernel)
  · intro n p h
    show (if n = 4 then some 66 else if n = 6 then some 67 else none) = none
    rw [if_neg (by omega), if_neg (by omega)]

/-- C193, false of the code: `publish --no-tests`, which needs a repository for untested versions in deptool.config, pushes to the ordinary one. -/
theorem publish_untested_false : ∃ env ps fuel s, Still env ∧ ¬ PushesTested ps env false true fuel s ∧
    pushes (publish env false true ps fuel s).1.log = [(.origin, 0, ⟨4, 6⟩), (.localCache, 0, ⟨4, 6⟩)] := by
  refine ⟨calm, [0], 5, start2, fun _ _ => rfl, ?_, by decide +kernel⟩
  intro h
  have := h rfl (by decide)
  revert this
  have e : (publish calm false true [0] 5 start2).1.log = .push .origin 0 ⟨4, 6⟩ :: (publish calm false true [0] 5 start2).1.log.tail := by
    rfl
  rw [e]
  exact not_vetted (by decide +kernel)

/-- Without `untested_repository`, `--no-tests` is refused before anything is done. -/
theorem publish_refused (env : Env) (ps : List Proj) (fuel : Nat) (s : St) : publish env false false ps fuel s = (s, false) := rfl

theorem tick_rest (env : Env) (s : St) : (tick env s).head = s.head ∧ (tick env s).made = s.made ∧ (tick env s).log = s.log := ⟨rfl, rfl, rfl⟩

theorem tryPush_done (env : Env) (r : Remote) (p : Proj) (s : St) :
    (tryPush env r p s).1.head = s.head ∧ (tryPush env r p s).1.made = s.made ∧ (∀ e ∈ s.log, e ∈ (tryPush env r p s).1.log) ∧
      ((tryPush env r p s).2 = true → .push r p (s.head p) ∈ (tryPush env r p s).1.log) := by
  unfold tryPush
  simp only
  split
  · exact ⟨rfl, rfl, fun e h => List.mem_cons_of_mem _ h, fun _ => List.mem_cons_self ..⟩
  · exact ⟨rfl, rfl, fun e h => h, fun h => by cases h⟩

theorem syncPull_made (env : Env) (p : Proj) (s : St) (h : (syncPull env p s).2 = true) : (syncPull env p s).1.made = true := by
  revert h
  unfold syncPull
  cases pull env p s with
  | mk s1 b =>
    cases b with
    | false => intro h; cases h
    | true => intro h; exact h

/-- One project has been pushed, unless there is more to do. -/
theorem syncOne_done (env : Env) (p : Proj) (s : St) (h : (syncOne env p s).2 = true) :
    (syncOne env p s).1.made = true ∨
      ((syncOne env p s).1.head = s.head ∧ (syncOne env p s).1.made = s.made ∧ (∀ e ∈ s.log, e ∈ (syncOne env p s).1.log) ∧
        ∀ r, .push r p (s.head p) ∈ (syncOne env p s).1.log) := by
  revert h
  unfold syncOne
  obtain ⟨a1, a2, a3, a4⟩ := tryPush_done env .localCache p s
  cases e : tryPush env .localCache p s with
  | mk s1 b =>
    rw [e] at a1 a2 a3 a4
    simp only at a1 a2 a3 a4
    cases b with
    | false => intro h; exact Or.inl (syncPull_made env p s1 h)
    | true =>
      simp only
      obtain ⟨b1, b2, b3, b4⟩ := tryPush_done env .origin p s1
      cases e2 : tryPush env .origin p s1 with
      | mk s2 c =>
        rw [e2] at b1 b2 b3 b4
        simp only at b1 b2 b3 b4
        cases c with
        | false => intro h; exact Or.inl (syncPull_made env p s2 h)
        | true =>
          intro _
          refine Or.inr ⟨b1.trans a1, b2.trans a2, fun e h => b3 e (a3 e h), fun r => ?_⟩
          cases r with
          | localCache => exact b3 _ (a4 rfl)
          | origin => have := b4 rfl; rw [a1] at this; exact this

theorem pull_made (env : Env) (p : Proj) (s : St) (h : s.made = true) : (pull env p s).1.made = true := by
  unfold pull
  simp only
  split
  · exact h
  · exact h
  · show ((tick env s).made || _) = true
    rw [(tick_rest env s).2.1, h]; rfl

theorem syncOne_made (env : Env) (p : Proj) (s : St) (h : s.made = true) : (syncOne env p s).1.made = true := by
  have hsp : ∀ s : St, s.made = true → (syncPull env p s).1.made = true := by
    intro s h
    have := pull_made env p s h
    unfold syncPull
    cases e : pull env p s with
    | mk s1 b => rw [e] at this; cases b <;> exact this
  unfold syncOne
  have a := (tryPush_done env .localCache p s).2.1
  cases e : tryPush env .localCache p s with
  | mk s1 b =>
    rw [e] at a
    simp only at a
    cases b with
    | false => exact hsp s1 (a.trans h)
    | true =>
      simp only
      have a2 := (tryPush_done env .origin p s1).2.1
      cases e2 : tryPush env .origin p s1 with
      | mk s2 b2 =>
        rw [e2] at a2
        simp only at a2
        cases b2 with
        | false => exact hsp s2 (a2.trans (a.trans h))
        | true => exact a2.trans (a.trans h)

theorem syncWalk_made (env : Env) : ∀ (qs : List Proj) (s : St), s.made = true → (walk (syncOne env) qs s).1.made = true := by
  intro qs
  induction qs with
  | nil => intro s h; exact h
  | cons q qs ih =>
    intro s h
    have := syncOne_made env q s h
    unfold walk
    cases e : syncOne env q s with
    | mk s1 b =>
      rw [e] at this
      cases b with
      | false => exact this
      | true => exact ih s1 this

theorem syncWalk_done (env : Env) : ∀ (qs : List Proj) (s : St), (walk (syncOne env) qs s).2 = true → (walk (syncOne env) qs s).1.made = false →
    (walk (syncOne env) qs s).1.head = s.head ∧ (∀ e ∈ s.log, e ∈ (walk (syncOne env) qs s).1.log) ∧ ∀ q ∈ qs, ∀ r, .push r q (s.head q) ∈ (walk (syncOne env) qs s).1.log := by
  intro qs
  induction qs with
  | nil => intro s _ _; exact ⟨rfl, fun _ h => h, fun _ h => by cases h⟩
  | cons q qs ih =>
    intro s
    have h1 := syncOne_done env q s
    unfold walk
    cases e : syncOne env q s with
    | mk s1 b =>
      rw [e] at h1
      simp only at h1
      cases b with
      | false => intro h; cases h
      | true =>
        simp only
        intro hb hm
        rcases h1 rfl with h1 | ⟨c1, c2, c3, c4⟩
        · rw [syncWalk_made env qs s1 h1] at hm; cases hm
        · obtain ⟨i1, i2, i3⟩ := ih s1 hb hm
          refine ⟨i1.trans c1, fun e h => i2 e (c3 e h), fun x hx r => ?_⟩
          rcases List.mem_cons.mp hx with rfl | hx
          · exact i2 _ (c4 r)
          · have := i3 x hx r; rw [c1] at this; exact this

theorem publishLoop_done (env : Env) (tests : Bool) (ps : List Proj) (fuel : Nat) : ∀ (n : Nat) (s : St), (publishLoop env tests ps fuel n s).2 = true →
    ∀ q ∈ ps, ∀ r, .push r q ((publishLoop env tests ps fuel n s).1.head q) ∈ (publishLoop env tests ps fuel n s).1.log := by
  intro n
  induction n with
  | zero => intro s h; cases h
  | succ n ih =>
    intro s
    unfold publishLoop
    cases verify env tests { s with made := false } with
    | mk s1 b =>
      cases b with
      | false => intro h; cases h
      | true =>
        simp only
        cases walk (pullOne env fuel) ps s1 with
        | mk s2 b2 =>
          cases b2 with
          | false => intro h; cases h
          | true =>
            simp only
            cases hm : s2.made with
            | true => simp only [if_true]; exact ih s2
            | false =>
              simp only [Bool.false_eq_true, if_false]
              have hw := syncWalk_done env ps s2
              cases e3 : walk (syncOne env) ps s2 with
              | mk s3 b3 =>
                rw [e3] at hw
                simp only at hw
                cases b3 with
                | false => intro h; cases h
                | true =>
                  simp only
                  cases hm3 : s3.made with
                  | true => simp only [if_true]; exact ih s3
                  | false =>
                    simp only [Bool.false_eq_true, if_false]
                    intro _
                    obtain ⟨w1, _, w3⟩ := hw rfl hm3
                    intro q hq r
                    have := w3 q hq r
                    rw [← w1] at this
                    exact this

/-- C193: when `publish` ends well, every project has been pushed to both places in the version that is its head, whatever happened meanwhile. -/
theorem publish_done (env : Env) (tests untested : Bool) (ps : List Proj) (fuel : Nat) (s : St) (h : (publish env tests untested ps fuel s).2 = true) :
    ∀ q ∈ ps, ∀ r, .push r q ((publish env tests untested ps fuel s).1.head q) ∈ (publish env tests untested ps fuel s).1.log := by
  revert h
  unfold publish
  split
  · intro h; cases h
  · cases commitAll env tests ps fuel s with
    | mk s1 b =>
      cases b with
      | false => intro h; cases h
      | true => exact publishLoop_done env tests ps fuel fuel s1

/-- C193: if the first build does not end well, `publish` ends with nothing committed or pushed, with tests or without. -/
theorem publish_broken (env : Env) (tests untested : Bool) (ps : List Proj) (fuel : Nat) (s : St) (h : env.passes (s.now + 1) = false) :
    (publish env tests untested ps fuel s).2 = false ∧ (publish env tests untested ps fuel s).1.log = s.log ∧ (publish env tests untested ps fuel s).1.head = s.head := by
  have hv : verify env tests s = (tick env s, false) := by
    unfold verify
    have : (tick env s).now = s.now + 1 := rfl
    simp only [this, h, Bool.false_eq_true, if_false]
  unfold publish
  split
  · exact ⟨rfl, rfl, rfl⟩
  · unfold commitAll
    rw [hv]
    exact ⟨rfl, rfl, rfl⟩

example : ({ calm with passes := fun _ => false } : Env).passes (start2.now + 1) = false := rfl

end Verif.DepVC
