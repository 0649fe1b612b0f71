import Verif.Latex.Lemmas

/-!
# Properties of `lintel-latex-rebuild` (C143–C146)
-/

namespace Verif.Latex

/-! ## What a finished step is -/

/-- The line says a word. -/
def Says (w l : Line) : Prop := ∃ a b, l = a ++ w ++ b

/-- The step ended by itself: the last of its attempts was not taken for a time-out, and gave the code. -/
def EndedWith (ts : List Try) (rc : Nat) : Prop := ∃ pre t, ts = pre ++ [t] ∧ t.killOk = true ∧ rc = t.code

/-- The step was given up: every one of the `r` attempts was a time-out. -/
def GivenUp (r : Nat) (ts : List Try) : Prop := ts.length = r ∧ ∀ t ∈ ts, t.killOk = false

/-- A step is quiet about a word. -/
def Quiet (w : Line) (ts : List Try) : Prop := ∀ t ∈ ts, ∀ l ∈ t.lines, ¬ Says w l

theorem outcome_cases {r : Nat} {ts : List Try} {rc : Nat} (h : Outcome r ts rc) : EndedWith ts rc ∨ (GivenUp r ts ∧ rc = 0) := by
  rcases h with ⟨pre, t, h1, h2, _, h4, _⟩ | ⟨h1, h2, h3⟩
  · exact .inl ⟨pre, t, h1, h2, h4⟩
  · exact .inr ⟨⟨h1, h2⟩, h3⟩

theorem latexCode_zero {c : Cfg} {ts : List Try} (h : LatexCode c ts 0) : EndedWith ts 0 ∨ GivenUp c.maxRetries ts := by
  rcases h with h | ⟨_, h, _⟩
  · rcases outcome_cases h with h | h
    · exact .inl h
    · exact .inr h.1
  · cases h

/-- The converters write what they say they have written. -/
def Honest (v : Conv) : Prop :=
  (∀ d, (v.dvips d).1 = 0 → ∃ x, (v.dvips d).2 = some x) ∧ (∀ d, (v.ps2pdf d).1 = 0 → ∃ x, (v.ps2pdf d).2 = some x)

/-- The end of a run that converged. -/
theorem build_cases (c : Cfg) (E : Nat → Try) (v : Conv) (s : St) :
    ∃ s1, Made c s s1 23 ∧
      ((s1.log.any (hasWord rerunText) = true ∧ build c E v s = (.noConvergence, s1)) ∨
        (s1.log.any (hasWord rerunText) = false ∧ build c E v s = finish c v s1)) := by
  have h := converge_made (E := E) (s := s) 10 (initial c E s) 3 (initial_made c E s)
  unfold build
  generalize converge c E 10 (initial c E s) = q at h
  obtain ⟨b, s1⟩ := q
  refine ⟨s1, h.1, ?_⟩
  cases b with
  | false => exact .inl ⟨by have := h.2; simp only [Bool.false_eq_true, false_iff, Bool.not_eq_false] at this; exact this, rfl⟩
  | true => exact .inr ⟨h.2.mp rfl, rfl⟩

theorem finish_success {c : Cfg} {v : Conv} {s s' : St} (h : finish c v s = (.success, s')) :
    s.latexErr = 0 ∧ s.bibtexErr = 0 ∧ (v.dvips s.dvi).1 = 0 ∧ (v.dvipstemp s.dvi).1 = 0 ∧ (v.ps2pdf (v.dvipstemp s.dvi).2).1 = 0 ∧
      s' = (convert v s).1 ∧ (c.errorOnWarnings = true → s'.log.any (fun l => hasWord warningText (lower l)) = false) := by
  unfold finish at h
  by_cases h1 : s.latexErr = 0
  · by_cases h2 : s.bibtexErr = 0
    · rw [if_neg (by simp [h1]), if_neg (by simp [h2])] at h
      simp only [] at h
      have hq : (convert v s).2 = (if (v.dvips s.dvi).1 ≠ 0 then some .dvips else if (v.dvipstemp s.dvi).1 ≠ 0 then some .dvipstemp else if (v.ps2pdf (v.dvipstemp s.dvi).2).1 ≠ 0 then some .ps2pdf else none) := rfl
      cases hf : (convert v s).2 with
      | some f => rw [hf] at h; simp at h
      | none =>
        rw [hf] at h hq
        simp only [] at h
        have h3 : (v.dvips s.dvi).1 = 0 := by
          refine Decidable.byContradiction fun hn => ?_
          rw [if_pos hn] at hq; cases hq
        rw [if_neg (by simp [h3])] at hq
        have h4 : (v.dvipstemp s.dvi).1 = 0 := by
          refine Decidable.byContradiction fun hn => ?_
          rw [if_pos hn] at hq; cases hq
        rw [if_neg (by simp [h4])] at hq
        have h5 : (v.ps2pdf (v.dvipstemp s.dvi).2).1 = 0 := by
          refine Decidable.byContradiction fun hn => ?_
          rw [if_pos hn] at hq; cases hq
        by_cases hw : (c.errorOnWarnings && (convert v s).1.log.any (fun l => hasWord warningText (lower l))) = true
        · rw [if_pos hw] at h; simp at h
        · rw [if_neg hw] at h
          simp only [Prod.mk.injEq, true_and] at h
          refine ⟨h1, h2, h3, h4, h5, h.symm, ?_⟩
          intro he
          rw [he, Bool.true_and] at hw
          rw [← h]
          simpa using hw
    · rw [if_neg (by simp [h1]), if_pos h2] at h; simp at h
  · rw [if_pos h1] at h; simp at h

theorem convert_fields (v : Conv) (s : St) : (convert v s).1.hist = s.hist ∧ (convert v s).1.log = s.log ∧ (convert v s).1.dvi = s.dvi ∧
    (convert v s).1.ps = (if (v.dvips s.dvi).1 = 0 then (match (v.dvips s.dvi).2 with | some x => some x | none => s.ps) else s.ps) ∧
    (convert v s).1.pdf = (if (v.ps2pdf (v.dvipstemp s.dvi).2).1 = 0 then (match (v.ps2pdf (v.dvipstemp s.dvi).2).2 with | some x => some x | none => s.pdf) else s.pdf) := by
  unfold convert
  simp only []
  generalize v.dvips s.dvi = a
  generalize v.ps2pdf (v.dvipstemp s.dvi).2 = d
  obtain ⟨a1, a2⟩ := a
  obtain ⟨d1, d2⟩ := d
  by_cases h1 : a1 = 0 <;> by_cases h2 : d1 = 0 <;> cases a2 <;> cases d2 <;> simp [h1, h2]

/-! ## C143: a successful run -/

/-- A run that ends with success: the two last runs of latex asked for no other, the last one gave no error (or was given up), so did the bibtex between them if there were citations, and
both the `.ps` and the `.pdf` were made from the `.dvi` that the last run of latex left. With `--error-on-warnings`, none of these programs wrote a warning. -/
theorem success_stable (c : Cfg) (E : Nat → Try) (v : Conv) (s s' : St) (hv : Honest v) (h : build c E v s = (.success, s')) :
    ∃ t1 t2 rc2 mid rest, s'.hist = .latex t1 0 :: (mid ++ .latex t2 rc2 :: rest) ∧
      Quiet rerunText t1 ∧ Quiet rerunText t2 ∧
      (EndedWith t1 0 ∨ GivenUp c.maxRetries t1) ∧
      (mid = [] ∨ ∃ tb, mid = [.bibtex tb 0] ∧ Quiet rerunText tb ∧ (EndedWith tb 0 ∨ GivenUp c.maxRetries tb)) ∧
      (∀ pre t, t2 = pre ++ [t] → (mid = [] ↔ t.aux ≠ some true)) ∧
      (∀ pre t, t1 = pre ++ [t] → s'.dvi = t.dvi) ∧
      (∃ x, v.dvips s'.dvi = (0, some x) ∧ s'.ps = some x) ∧
      (∃ o x, v.dvipstemp s'.dvi = (0, o) ∧ v.ps2pdf o = (0, some x) ∧ s'.pdf = some x) ∧
      (c.errorOnWarnings = true → ∀ l : Line, (∃ ts ∈ [t1, t2] ++ mid.map (fun | .bibtex tb _ => tb | .latex tb _ => tb), ∃ t ∈ ts, l ∈ t.lines) → ¬ Says warningText (lower l)) := by
  obtain ⟨s1, m, ⟨_, hb⟩ | ⟨hr, hb⟩⟩ := build_cases c E v s
  · rw [hb] at h; simp at h
  rw [hb] at h
  obtain ⟨e1, e2, e3, e4, e5, e6, e7⟩ := finish_success h
  obtain ⟨s0, t1, t2, rc2, mid, r⟩ := m.last
  obtain ⟨f1, f2, f3, f4, f5⟩ := convert_fields v s1
  have hh := r.hist
  rw [e1, ← f1, ← e6] at hh
  have hlog : s'.log = s1.log := by rw [e6, f2]
  have hdvi : s'.dvi = s1.dvi := by rw [e6, f3]
  have quiet : ∀ ts : List Try, (∀ t ∈ ts, ∀ l ∈ t.lines, l ∈ s1.log) → Quiet rerunText ts := by
    intro ts hts t ht l hl hs
    have := List.any_eq_false.mp hr l (hts t ht l hl)
    exact this ((hasWord_iff _ _).mpr hs)
  have c1 := r.code1
  rw [e1] at c1
  refine ⟨t1, t2, rc2, mid, s0.hist, hh, quiet t1 r.lines1, quiet t2 r.lines2, latexCode_zero c1, ?_, ?_, ?_, ?_, ?_, ?_⟩
  · rcases r.between with ⟨g, _⟩ | ⟨ts, g1, g2, g3⟩
    · exact .inl g
    · rw [e2] at g1 g2
      refine .inr ⟨ts, g1, quiet ts g3, ?_⟩
      rcases outcome_cases g2 with g | g
      · exact .inl g
      · exact .inr g.1
  · intro pre t ht
    have := r.cites
    rw [ht] at this
    simpa [after] using this
  · intro pre t ht
    obtain ⟨d, hd⟩ := r.dvi
    rw [hdvi, hd, ht]
    simp [after]
  · obtain ⟨x, hx⟩ := hv.1 s1.dvi e3
    refine ⟨x, by rw [hdvi]; exact Prod.ext e3 hx, ?_⟩
    rw [e6, f4, if_pos e3, hx]
  · obtain ⟨x, hx⟩ := hv.2 _ e5
    refine ⟨(v.dvipstemp s1.dvi).2, x, by rw [hdvi]; exact Prod.ext e4 rfl, Prod.ext e5 hx, ?_⟩
    rw [e6, f5, if_pos e5, hx]
  · intro he l hl hs
    have hw := List.any_eq_false.mp (e7 he) l
    refine hw ?_ ((hasWord_iff _ _).mpr hs)
    rw [hlog]
    obtain ⟨ts, hts, t, ht, hl⟩ := hl
    rcases List.mem_append.mp hts with hts | hts
    · simp only [List.mem_cons, List.not_mem_nil, or_false] at hts
      rcases hts with rfl | rfl
      · exact r.lines1 t ht l hl
      · exact r.lines2 t ht l hl
    · rcases r.between with ⟨g, _⟩ | ⟨tb, g1, _, g3⟩
      · rw [g] at hts; cases hts
      · rw [g1] at hts
        simp only [List.map_cons, List.map_nil, List.mem_singleton] at hts
        subst hts
        exact g3 t ht l hl

/-- If no step was given up, success means that the last latex and bibtex really succeeded. -/
theorem success_stable_partial (c : Cfg) (E : Nat → Try) (v : Conv) (s s' : St) (hv : Honest v) (h : build c E v s = (.success, s'))
    (hg : ∀ ev ∈ s'.hist, ∀ ts rc, ev = .latex ts rc ∨ ev = .bibtex ts rc → ¬ GivenUp c.maxRetries ts) :
    ∃ t1 t2 rc2 mid rest, s'.hist = .latex t1 0 :: (mid ++ .latex t2 rc2 :: rest) ∧ Quiet rerunText t1 ∧ Quiet rerunText t2 ∧
      (∃ pre t, t1 = pre ++ [t] ∧ t.killOk = true ∧ t.code = 0 ∧ s'.dvi = t.dvi) ∧
      (mid = [] ∨ ∃ tb, mid = [.bibtex tb 0] ∧ EndedWith tb 0) ∧
      (∃ x, v.dvips s'.dvi = (0, some x) ∧ s'.ps = some x) ∧
      (∃ o x, v.dvipstemp s'.dvi = (0, o) ∧ v.ps2pdf o = (0, some x) ∧ s'.pdf = some x) := by
  obtain ⟨t1, t2, rc2, mid, rest, a1, a2, a3, a4, a5, _, a7, a8, a9, _⟩ := success_stable c E v s s' hv h
  have n1 : ¬ GivenUp c.maxRetries t1 := hg (.latex t1 0) (by rw [a1]; simp) t1 0 (.inl rfl)
  obtain ⟨pre, t, p1, p2, p3⟩ := a4.resolve_right n1
  refine ⟨t1, t2, rc2, mid, rest, a1, a2, a3, ⟨pre, t, p1, p2, p3.symm, a7 pre t p1⟩, ?_, a8, a9⟩
  rcases a5 with a | ⟨tb, b1, _, b3⟩
  · exact .inl a
  · refine .inr ⟨tb, b1, b3.resolve_right ?_⟩
    exact hg (.bibtex tb 0) (by rw [a1, b1]; simp) tb 0 (.inr rfl)

/-- A configuration, converters and a beginning for the examples. -/
def cfg : Cfg := ⟨3, "paper".toList, "/usr/bin/latex".toList, false⟩
def conv : Conv := ⟨fun d => (if d = none then 1 else 0, d), fun d => (if d = none then 1 else 0, d), fun d => (if d = none then 1 else 0, d.map (· + 100))⟩
def st0 : St := ⟨0, [], none, none, none, none, 0, 0, []⟩

theorem conv_honest : Honest conv := by
  constructor <;> intro d h <;> cases d with
  | none => simp [conv] at h
  | some x => simp [conv]

/-- latex asks once for another run, with citations; bibtex runs in between. -/
def goodRun : Nat → Try
  | 0 => ⟨0, false, true, ["Rerun to get cross-references right".toList], some true, some 1⟩
  | n + 1 => ⟨0, false, true, [], some true, some (n + 2)⟩

example : (build cfg goodRun conv st0).1 = .success ∧ (build cfg goodRun conv st0).2.ps = some 6 ∧ (build cfg goodRun conv st0).2.pdf = some 106 ∧
    (build cfg goodRun conv st0).2.hist.length = 6 ∧
    (∀ ev ∈ (build cfg goodRun conv st0).2.hist, ∀ ts rc, ev = .latex ts rc ∨ ev = .bibtex ts rc → ¬ GivenUp cfg.maxRetries ts) := by
  refine ⟨by decide +kernel, by decide +kernel, by decide +kernel, by decide +kernel, ?_⟩
  have : ∀ ev ∈ (build cfg goodRun conv st0).2.hist, (match ev with | .latex ts _ => ts.length | .bibtex ts _ => ts.length) ≠ cfg.maxRetries := by
    decide +kernel
  intro ev hev ts rc h hg
  rcases h with rfl | rfl
  · exact this _ hev hg.1
  · exact this _ hev hg.1

/-- Every attempt at latex is killed: the run ends with success all the same, from whatever the killed attempts left. -/
theorem success_given_up_false :
    ∃ (E : Nat → Try), (∀ n, (E n).killOk = false ∧ (E n).code = 143) ∧ (build cfg E conv st0).1 = .success ∧ ((build cfg E conv st0).1).code = 0 :=
  ⟨fun _ => ⟨143, true, false, [], none, some 1⟩, by simp, by decide +kernel, by decide +kernel⟩

/-- A document whose name says "warning" fails with `--error-on-warnings` although nothing warns. -/
theorem warning_name_false :
    ∃ (c : Cfg) (E : Nat → Try), c.errorOnWarnings = true ∧ (∀ n, (E n).lines = [] ∧ (E n).code = 0) ∧ (build c E conv st0).1 = .warnings :=
  ⟨⟨3, "early-warnings".toList, "/usr/bin/latex".toList, true⟩, fun _ => ⟨0, false, true, [], none, some 1⟩, rfl, by simp, by decide +kernel⟩

/-! ## C144: time-outs -/

/-- A step makes at most the given number of attempts; all but the last were taken for time-outs; the first that was not gives the code; and 0 is the code when there is none. -/
theorem retries (c : Cfg) (E : Nat → Try) (v : Conv) (s : St) :
    ∃ evs, (build c E v s).2.hist = evs ++ s.hist ∧
      ∀ ts rc, (Ev.latex ts rc ∈ evs ∨ Ev.bibtex ts rc ∈ evs) → ts.length ≤ c.maxRetries ∧
        ((∃ pre t, ts = pre ++ [t] ∧ (∀ u ∈ pre, u.killOk = false) ∧ t.killOk = true ∧ (rc = t.code ∨ (isPerltex c = true ∧ rc = 77))) ∨
          ((∀ u ∈ ts, u.killOk = false) ∧ ts.length = c.maxRetries ∧ (rc = 0 ∨ (isPerltex c = true ∧ rc = 77)))) := by
  obtain ⟨s1, m, hb⟩ := build_cases c E v s
  have hh : (build c E v s).2.hist = s1.hist := by
    rcases hb with ⟨_, hb⟩ | ⟨_, hb⟩
    · rw [hb]
    · rw [hb]
      unfold finish
      split
      · rfl
      · split
        · rfl
        · simp only []
          split
          · exact (convert_fields v s1).1
          · split
            · exact (convert_fields v s1).1
            · exact (convert_fields v s1).1
  obtain ⟨evs, h1, _, h3, h4⟩ := m.steps
  refine ⟨evs, by rw [hh, h1], ?_⟩
  have key : ∀ ts rc rc', Outcome c.maxRetries ts rc → (rc' = rc ∨ (isPerltex c = true ∧ rc' = 77)) → ts.length ≤ c.maxRetries ∧
        ((∃ pre t, ts = pre ++ [t] ∧ (∀ u ∈ pre, u.killOk = false) ∧ t.killOk = true ∧ (rc' = t.code ∨ (isPerltex c = true ∧ rc' = 77))) ∨
          ((∀ u ∈ ts, u.killOk = false) ∧ ts.length = c.maxRetries ∧ (rc' = 0 ∨ (isPerltex c = true ∧ rc' = 77)))) := by
    intro ts rc rc' ho hr
    rcases ho with ⟨pre, t, g1, g2, g3, g4, g5⟩ | ⟨g1, g2, g3⟩
    · exact ⟨g5, .inl ⟨pre, t, g1, g3, g2, by rw [← g4]; exact hr⟩⟩
    · exact ⟨by omega, .inr ⟨g2, g1, by rw [← g3]; exact hr⟩⟩
  intro ts rc h
  rcases h with h | h
  · rcases h3 ts rc h with g | ⟨g1, g2, rc', g3⟩
    · exact key ts rc rc g (.inl rfl)
    · exact key ts rc' rc g3 (.inr ⟨g1, g2⟩)
  · exact key ts rc rc (h4 ts rc h) (.inl rfl)

/-- One attempt is lost, the next one succeeds. -/
def onceLate : Nat → Try
  | 0 => ⟨143, true, false, [], none, none⟩
  | n + 1 => ⟨0, false, true, [], some false, some (n + 1)⟩

example : (build cfg onceLate conv st0).1 = .success ∧
    (build cfg onceLate conv st0).2.hist = [.latex [onceLate 2] 0, .latex [onceLate 0, onceLate 1] 0] := by
  constructor <;> decide +kernel

/-- The documentation: after that many tries the build stops. For every number of tries it goes on as if latex had succeeded. -/
theorem stops_false (r : Nat) : ∃ (c : Cfg) (E : Nat → Try), c.maxRetries = r ∧ (∀ n, (E n).fired = true ∧ (E n).killOk = false ∧ (E n).code = 143) ∧
    ∀ s, (rebuildLatex c E s).latexErr = 0 := by
  refine ⟨⟨r, "paper".toList, "/usr/bin/latex".toList, false⟩, fun _ => ⟨143, true, false, [], none, none⟩, rfl, by simp, fun s => ?_⟩
  obtain ⟨ts, h⟩ := rebuildLatex_spec ⟨r, "paper".toList, "/usr/bin/latex".toList, false⟩ (fun _ => ⟨143, true, false, [], none, none⟩) s
  have hE : ∀ (k : Nat) (s1 : St), (tries (fun _ => ⟨143, true, false, [], none, none⟩) (latexLine ⟨r, "paper".toList, "/usr/bin/latex".toList, false⟩) k s1).2.2 = 0 := by
    intro k
    induction k with
    | zero => intro s1; rfl
    | succ k ih => intro s1; rw [tries]; exact ih _
  unfold rebuildLatex
  simp only []
  rw [if_neg (by
    rw [show isPerltex ⟨r, "paper".toList, "/usr/bin/latex".toList, false⟩ = "perltex".toList.isSuffixOf "/usr/bin/latex".toList from rfl,
      show "perltex".toList.isSuffixOf "/usr/bin/latex".toList = false from by decide +kernel]
    simp)]
  exact hE _ _

/-- An attempt that was killed is not tried again if the sleeping process is still there to be killed (it has to write a line and end): the run fails at once. -/
theorem retried_false : ∃ (E : Nat → Try), (E 0).fired = true ∧ (build cfg E conv st0).1 = .failed .latex ∧
    ∀ ts rc, Ev.latex ts rc ∈ (build cfg E conv st0).2.hist → ts.length = 1 := by
  refine ⟨fun _ => ⟨143, true, true, [], none, none⟩, rfl, by decide +kernel, ?_⟩
  have : ∀ ev ∈ (build cfg (fun _ => ⟨143, true, true, [], none, none⟩) conv st0).2.hist, (match ev with | .latex ts _ => ts.length | .bibtex ts _ => ts.length) = 1 := by
    decide +kernel
  intro ts rc h
  exact this _ h

/-! ## C145: a run that fails -/

theorem finish_failed {c : Cfg} {v : Conv} {s s' : St} {e : End} (h : finish c v s = (e, s')) (he : e ≠ .success) :
    s'.dvi = none ∧ s'.ps = none ∧ s'.pdf = none ∧ e ≠ .noConvergence := by
  unfold finish at h
  split at h
  · simp only [Prod.mk.injEq] at h; obtain ⟨rfl, rfl⟩ := h; exact ⟨rfl, rfl, rfl, by simp⟩
  · split at h
    · simp only [Prod.mk.injEq] at h; obtain ⟨rfl, rfl⟩ := h; exact ⟨rfl, rfl, rfl, by simp⟩
    · simp only [] at h
      split at h
      · simp only [Prod.mk.injEq] at h; obtain ⟨rfl, rfl⟩ := h; exact ⟨rfl, rfl, rfl, by simp⟩
      · split at h
        · simp only [Prod.mk.injEq] at h; obtain ⟨rfl, rfl⟩ := h; exact ⟨rfl, rfl, rfl, by simp⟩
        · simp only [Prod.mk.injEq] at h; exact absurd h.1.symm he

/-- A run that ends with an error other than missing convergence leaves no `.dvi`, `.ps` or `.pdf`; one that does not converge leaves `.ps` and `.pdf` as they were, and had asked for another run
to the last. Whatever happens, latex is run at most 23 times (each at most the given number of attempts). -/
theorem failure_partial (c : Cfg) (E : Nat → Try) (v : Conv) (s s' : St) (e : End) (h : build c E v s = (e, s')) :
    ((e ≠ .success ∧ e ≠ .noConvergence) → s'.dvi = none ∧ s'.ps = none ∧ s'.pdf = none) ∧
      (e = .noConvergence → s'.ps = s.ps ∧ s'.pdf = s.pdf ∧ ∃ l ∈ s'.log, Says rerunText l) ∧
      (latexRuns s'.hist).length ≤ (latexRuns s.hist).length + 23 := by
  obtain ⟨s1, m, hb⟩ := build_cases c E v s
  have hcount : s'.hist = s1.hist := by
    rcases hb with ⟨_, hb⟩ | ⟨_, hb⟩
    · rw [hb] at h; simp only [Prod.mk.injEq] at h; rw [← h.2]
    · rw [hb] at h
      unfold finish at h
      split at h
      · simp only [Prod.mk.injEq] at h; rw [← h.2]; rfl
      · split at h
        · simp only [Prod.mk.injEq] at h; rw [← h.2]; rfl
        · simp only [] at h
          split at h
          · simp only [Prod.mk.injEq] at h; rw [← h.2]; exact (convert_fields v s1).1
          · split at h
            · simp only [Prod.mk.injEq] at h; rw [← h.2]; exact (convert_fields v s1).1
            · simp only [Prod.mk.injEq] at h; rw [← h.2]; exact (convert_fields v s1).1
  refine ⟨?_, ?_, ?_⟩
  · rintro ⟨n1, n2⟩
    rcases hb with ⟨_, hb⟩ | ⟨_, hb⟩
    · rw [hb] at h; simp only [Prod.mk.injEq] at h; exact absurd h.1.symm n2
    · rw [hb] at h
      have := finish_failed h n1
      exact ⟨this.1, this.2.1, this.2.2.1⟩
  · rintro rfl
    rcases hb with ⟨hr, hb⟩ | ⟨_, hb⟩
    · rw [hb] at h
      simp only [Prod.mk.injEq, true_and] at h
      rw [← h]
      obtain ⟨l, hl, hw⟩ := List.any_eq_true.mp hr
      exact ⟨m.ps, m.pdf, l, hl, (hasWord_iff _ _).mp hw⟩
    · rw [hb] at h
      exact absurd rfl (finish_failed h (by simp)).2.2.2
  · obtain ⟨evs, h1, h2, _⟩ := m.steps
    rw [hcount, h1, latexRuns_append, List.length_append]
    omega

/-- latex never stops asking. -/
def restless : Nat → Try := fun _ => ⟨0, false, true, ["Rerun to get citations correct".toList], none, some 7⟩

example : (build cfg restless conv st0).1 = .noConvergence ∧ (latexRuns (build cfg restless conv st0).2.hist).length = 22 := by
  constructor <;> decide +kernel

/-- latex fails: an old `.pdf` goes. -/
example : (build cfg (fun _ => ⟨1, false, true, [], none, some 7⟩) conv { st0 with pdf := some 5 }).1 = .failed .latex ∧
    (build cfg (fun _ => ⟨1, false, true, [], none, some 7⟩) conv { st0 with pdf := some 5 }).2.pdf = none := by
  constructor <;> decide +kernel

/-- A run that does not converge ends with an error and leaves the `.pdf` of an earlier run. -/
theorem failure_false : ∃ (E : Nat → Try) (s : St), (build cfg E conv s).1.code = 1 ∧ s.pdf = some 5 ∧ (build cfg E conv s).2.pdf = some 5 :=
  ⟨restless, { st0 with pdf := some 5 }, by decide +kernel, rfl, by decide +kernel⟩

/-! ## C146: arguments -/

/-- A list of texts with a character between them. -/
def joined (sep : Char) : List Line → Line
  | [] => []
  | [x] => x
  | x :: y :: l => x ++ sep :: joined sep (y :: l)

/-- A word that is no option. -/
def NoOption (a : Line) : Prop :=
  a ∉ ["--error-on-warnings".toList, "--disable-flock".toList, "--tex".toList, "--bib".toList, "--bst".toList, "--paper".toList, "--latex-binary".toList,
    "--max-step-time".toList, "--max-retries".toList]

instance (a : Line) : Decidable (NoOption a) := inferInstanceAs (Decidable (a ∉ _))

theorem kind_other {a : Line} (h : NoOption a) : kind a = .other := by
  unfold NoOption at h
  simp only [List.mem_cons, List.not_mem_nil, or_false, not_or] at h
  obtain ⟨h1, h2, h3, h4, h5, h6, h7, h8, h9⟩ := h
  unfold kind
  rw [if_neg h1, if_neg h2, if_neg h3, if_neg h4, if_neg h5, if_neg h6, if_neg h7, if_neg h8, if_neg h9]

theorem options_stop (o : Opts) (a : Line) (as : List Line) (h : NoOption a) : options o (a :: as) = some (o, a :: as) := by
  cases as with
  | nil => rw [options, kind_other h]
  | cons p as => rw [options, kind_other h]

theorem kind_tex : kind "--tex".toList = .tex := by decide +kernel

theorem options_tex (o : Opts) (p : Line) (as : List Line) :
    options o ("--tex".toList :: p :: as) = options { o with tex := prepend p o.tex } as := by
  rw [options, kind_tex]; rfl

theorem options_texs (ps : List Line) : ∀ (o : Opts) (as : List Line),
    options o (ps.flatMap (fun p => ["--tex".toList, p]) ++ as) = options { o with tex := joined ':' (ps.reverse ++ [o.tex]) } as := by
  induction ps with
  | nil => intro o as; rfl
  | cons p ps ih =>
    intro o as
    show options o ("--tex".toList :: p :: (ps.flatMap (fun p => ["--tex".toList, p]) ++ as)) = _
    rw [options_tex, ih]
    have : joined ':' (ps.reverse ++ [prepend p o.tex]) = joined ':' ((p :: ps).reverse ++ [o.tex]) := by
      rw [List.reverse_cons, List.append_assoc]
      generalize ps.reverse = l
      induction l with
      | nil => rfl
      | cons x l ihl =>
        cases l with
        | nil => simp only [List.nil_append, List.cons_append, joined] at ihl ⊢; rw [← ihl]
        | cons y l => simp only [List.cons_append, joined] at ihl ⊢; rw [ihl]
    simp only [this]

theorem search_eq (src x : Line) : search src x = joined ':' [src, x, shareDir, []] := by
  simp [search, joined]

theorem joined_inner (a : List Line) (b : Line) (l d : List Line) (hl : l ≠ []) :
    joined ':' (a ++ joined ':' l :: b :: d) = joined ':' (a ++ l ++ b :: d) := by
  induction a with
  | nil =>
    induction l with
    | nil => exact absurd rfl hl
    | cons x l ih =>
      cases l with
      | nil => rfl
      | cons y l =>
        have := ih (by simp)
        simp only [List.nil_append, List.cons_append, joined] at this ⊢
        rw [← this]
        simp
  | cons z a ih =>
    cases a with
    | nil =>
      simp only [List.nil_append, List.cons_append] at ih ⊢
      cases l with
      | nil => exact absurd rfl hl
      | cons x l => simp only [List.cons_append, joined] at ih ⊢; rw [← ih]
    | cons w a => simp only [List.cons_append, joined] at ih ⊢; rw [ih]

/-- latex looks first in the source directory, then in the `--tex` directories, the one given last first, then where the caller's environment says, then in the installed files, then (the empty entry) in
its own default places. -/
theorem search_order (fs : Fs) (o : Opts) (ps : List Line) (src name : Line) (hs : NoOption src) (hh : src ≠ "-h".toList)
    (hd : fs.isDir src = true) (hf : fs.isFile (src ++ '/' :: name ++ ".tex".toList) = true) (hw : words name false = 1)
    (hl : ∀ x ∈ [".blg".toList, ".bbl".toList, ".dvi".toList, ".aux".toList], fs.isFile (src ++ '/' :: name ++ x) = false) :
    ∃ bib bst o', args fs o (ps.flatMap (fun p => ["--tex".toList, p]) ++ [src, name]) =
      .ok (joined ':' (src :: ps.reverse ++ [o.tex, shareDir, []])) bib bst name o' := by
  have hopt : options o (ps.flatMap (fun p => ["--tex".toList, p]) ++ [src, name]) =
      some ({ o with tex := joined ':' (ps.reverse ++ [o.tex]) }, [src, name]) := by
    rw [options_texs, options_stop _ _ _ hs]
  refine ⟨search src o.bib, search src o.bst, { o with tex := joined ':' (ps.reverse ++ [o.tex]) }, ?_⟩
  unfold args
  rw [hopt]
  simp only []
  have l1 := hl ".blg".toList (by simp)
  have l2 := hl ".bbl".toList (by simp)
  have l3 := hl ".dvi".toList (by simp)
  have l4 := hl ".aux".toList (by simp)
  rw [if_neg hh, if_neg (by simp [hd]), if_neg (by rw [hf]; simp), if_neg (by simp [hw]), if_neg (by rw [l1, l2, l3, l4]; simp)]
  have : search src (joined ':' (ps.reverse ++ [o.tex])) = joined ':' (src :: ps.reverse ++ [o.tex, shareDir, []]) := by
    rw [search_eq]
    have := joined_inner [src] shareDir (ps.reverse ++ [o.tex]) [[]] (by simp)
    simp only [List.cons_append, List.nil_append, List.append_assoc] at this ⊢
    exact this
  rw [this]

def opts0 : Opts := ⟨[], [], [], "letter".toList, false, "/usr/bin/latex".toList, true, "60".toList, "3".toList⟩
def fs0 : Fs := ⟨fun d => d = "src".toList, fun f => f = "src/paper.tex".toList⟩

example : args fs0 { opts0 with tex := "env".toList } (["--tex", "a", "--tex", "b:c", "src", "paper"].map String.toList) =
    .ok "src:b:c:a:env:/usr/local/share/lintel-latex-rebuild:".toList "src::/usr/local/share/lintel-latex-rebuild:".toList
      "src::/usr/local/share/lintel-latex-rebuild:".toList "paper".toList { opts0 with tex := "b:c:a:env".toList } := by
  decide +kernel

example : NoOption "src".toList ∧ words "paper".toList false = 1 ∧ fs0.isDir "src".toList = true := by decide +kernel

/-- Arguments that are not accepted end the script with exit code 0: for a source directory that is not there, say. -/
theorem usage_false (cf : Opts → Line → Cfg) (fs : Fs) (o : Opts) (src name : Line) (hs : NoOption src) (hd : fs.isDir src = false)
    (E : Nat → Try) (v : Conv) (s : St) : exitCode cf fs o [src, name] E v s = 0 := by
  unfold exitCode args
  rw [options_stop _ _ _ hs]
  simp only []
  by_cases h : src = "-h".toList
  · rw [if_pos h]
  · rw [if_neg h, if_pos (by simp [hd])]

example : NoOption "no-such-directory".toList ∧ fs0.isDir "no-such-directory".toList = false := by decide +kernel

/-- For accepted arguments the exit code is 0 exactly for success. -/
theorem exit_code_partial (cf : Opts → Line → Cfg) (fs : Fs) (o : Opts) (as : List Line) (E : Nat → Try) (v : Conv) (s : St)
    (ha : args fs o as ≠ .usage) :
    exitCode cf fs o as E v s = 0 ↔ ∃ tex bib bst name o', args fs o as = .ok tex bib bst name o' ∧ (build (cf o' name) E v s).1 = .success := by
  unfold exitCode
  generalize args fs o as = a at ha
  cases a with
  | usage => exact absurd rfl ha
  | leftovers => simp
  | ok tex bib bst name o' =>
    simp only [Args.ok.injEq]
    constructor
    · intro h
      refine ⟨tex, bib, bst, name, o', ⟨rfl, rfl, rfl, rfl, rfl⟩, ?_⟩
      generalize (build (cf o' name) E v s).1 = e at h ⊢
      cases e <;> simp [End.code] at h ⊢
    · rintro ⟨_, _, _, _, _, ⟨_, _, _, rfl, rfl⟩, h⟩
      rw [h]; rfl

example : args fs0 opts0 ["src".toList, "paper".toList] ≠ .usage := by decide +kernel

end Verif.Latex
