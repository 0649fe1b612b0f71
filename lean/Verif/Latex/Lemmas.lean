import Verif.Latex.Model

/-!
# Lemmas about the model of `lintel-latex-rebuild`
-/

namespace Verif.Latex

/-- What comes of a step: an attempt that was not taken for a time-out ends it with its code; if there is none, all tries are used up. -/
def Outcome (r : Nat) (ts : List Try) (rc : Nat) : Prop :=
  (∃ pre t, ts = pre ++ [t] ∧ t.killOk = true ∧ (∀ u ∈ pre, u.killOk = false) ∧ rc = t.code ∧ ts.length ≤ r) ∨
    (ts.length = r ∧ (∀ u ∈ ts, u.killOk = false) ∧ rc = 0)

/-- A file after a list of attempts. -/
def after {α : Type} (f : Try → Option α) (ts : List Try) (d : Option α) : Option α :=
  match ts.getLast? with
  | some t => f t
  | none => d

theorem after_nil {α : Type} (f : Try → Option α) (d : Option α) : after f [] d = d := rfl

theorem after_cons {α : Type} (f : Try → Option α) (t : Try) (ts : List Try) (d : Option α) : after f (t :: ts) d = after f ts (f t) := by
  cases ts with
  | nil => rfl
  | cons u us =>
    have e : (u :: us).getLast? = some ((u :: us).getLast (by simp)) := List.getLast?_eq_some_getLast (by simp)
    simp only [after, List.getLast?_cons_cons, e]

theorem hasWord_iff (w l : Line) : hasWord w l = true ↔ ∃ a b, l = a ++ w ++ b := by
  induction l with
  | nil =>
    simp only [hasWord, List.isEmpty_iff]
    constructor
    · rintro rfl; exact ⟨[], [], rfl⟩
    · rintro ⟨a, b, h⟩
      have := congrArg List.length h
      simp only [List.length_append, List.length_nil] at this
      exact List.length_eq_zero_iff.mp (by omega)
  | cons c l ih =>
    rw [hasWord, Bool.or_eq_true, ih, List.isPrefixOf_iff_prefix]
    constructor
    · rintro (⟨b, h⟩ | ⟨a, b, h⟩)
      · exact ⟨[], b, h.symm⟩
      · exact ⟨c :: a, b, by rw [h]; rfl⟩
    · rintro ⟨a, b, h⟩
      cases a with
      | nil => exact .inl ⟨b, h.symm⟩
      | cons x a =>
        right
        simp only [List.cons_append, List.cons.injEq] at h
        exact ⟨a, b, h.2⟩

/-- What `run_with_timeout` does. -/
structure TriesSpec (r : Nat) (s : St) (q : St × List Try × Nat) : Prop where
  hist : q.1.hist = s.hist
  ps : q.1.ps = s.ps
  pdf : q.1.pdf = s.pdf
  keeps : ∀ l ∈ s.log, l ∈ q.1.log
  lines : ∀ t ∈ q.2.1, ∀ l ∈ t.lines, l ∈ q.1.log
  aux : q.1.aux = after Try.aux q.2.1 s.aux
  dvi : q.1.dvi = after Try.dvi q.2.1 s.dvi
  outcome : Outcome r q.2.1 q.2.2

theorem tries_spec (E : Nat → Try) (cmd : Line) (r : Nat) (s : St) : TriesSpec r s (tries E cmd r s) := by
  induction r generalizing s with
  | zero =>
    refine ⟨rfl, rfl, rfl, fun l h => h, ?_, rfl, rfl, .inr ⟨rfl, ?_, rfl⟩⟩
    · intro t h; cases h
    · intro t h; cases h
  | succ r ih =>
    rw [tries]
    simp only []
    generalize ht : E s.n = t
    cases hk : t.killOk with
    | true =>
      simp only [if_true]
      refine ⟨rfl, rfl, rfl, ?_, ?_, ?_, ?_, .inl ⟨[], t, rfl, hk, ?_, rfl, ?_⟩⟩
      · intro l h; simp [h]
      · intro u hu l hl
        simp only [List.mem_singleton] at hu
        subst hu
        simp [hl]
      · simp [after]
      · simp [after]
      · intro u h; cases h
      · simp
    | false =>
      simp only [Bool.false_eq_true, if_false]
      generalize hs : ({ s with n := s.n + 1, log := s.log ++ ["Starting ".toList ++ cmd] ++ t.lines ++ ["Timeout on ".toList ++ cmd], aux := t.aux, dvi := t.dvi } : St) = s1
      have e := ih s1
      have el : s1.log = s.log ++ ["Starting ".toList ++ cmd] ++ t.lines ++ ["Timeout on ".toList ++ cmd] := by rw [← hs]
      refine ⟨?_, ?_, ?_, ?_, ?_, ?_, ?_, ?_⟩
      · rw [e.hist, ← hs]
      · rw [e.ps, ← hs]
      · rw [e.pdf, ← hs]
      · intro l h; exact e.keeps l (by rw [el]; simp [h])
      · intro u hu l hl
        rcases List.mem_cons.mp hu with rfl | hu
        · exact e.keeps l (by rw [el]; simp [hl])
        · exact e.lines u hu l hl
      · rw [e.aux, after_cons, ← hs]
      · rw [e.dvi, after_cons, ← hs]
      · rcases e.outcome with ⟨pre, u, h1, h2, h3, h4, h5⟩ | ⟨h1, h2, h3⟩
        · refine .inl ⟨t :: pre, u, by rw [h1]; rfl, h2, ?_, h4, by simp; omega⟩
          intro w hw
          rcases List.mem_cons.mp hw with rfl | hw
          · exact hk
          · exact h3 w hw
        · refine .inr ⟨by simp [h1], ?_, h3⟩
          intro w hw
          rcases List.mem_cons.mp hw with rfl | hw
          · exact hk
          · exact h2 w hw

/-- The code of a latex step: that of `run_with_timeout`, or 77 if perltex was seen to stop. -/
def LatexCode (c : Cfg) (ts : List Try) (rc : Nat) : Prop :=
  Outcome c.maxRetries ts rc ∨ (isPerltex c = true ∧ rc = 77 ∧ ∃ rc', Outcome c.maxRetries ts rc')

/-- What a latex step does. -/
structure LatexSpec (c : Cfg) (s s' : St) (ts : List Try) : Prop where
  hist : s'.hist = .latex ts s'.latexErr :: s.hist
  ps : s'.ps = s.ps
  pdf : s'.pdf = s.pdf
  keeps : ∀ l ∈ s.log, l ∈ s'.log
  lines : ∀ t ∈ ts, ∀ l ∈ t.lines, l ∈ s'.log
  aux : s'.aux = after Try.aux ts s.aux
  dvi : s'.dvi = after Try.dvi ts s.dvi
  bib : s'.bibtexErr = s.bibtexErr
  code : LatexCode c ts s'.latexErr

theorem tries_bib (E : Nat → Try) (cmd : Line) (r : Nat) (s : St) : (tries E cmd r s).1.bibtexErr = s.bibtexErr := by
  induction r generalizing s with
  | zero => rfl
  | succ r ih =>
    rw [tries]
    simp only []
    split
    · rfl
    · exact ih _

theorem tries_latexErr (E : Nat → Try) (cmd : Line) (r : Nat) (s : St) : (tries E cmd r s).1.latexErr = s.latexErr := by
  induction r generalizing s with
  | zero => rfl
  | succ r ih =>
    rw [tries]
    simp only []
    split
    · rfl
    · exact ih _

theorem rebuildLatex_spec (c : Cfg) (E : Nat → Try) (s : St) : ∃ ts, LatexSpec c s (rebuildLatex c E s) ts := by
  generalize hs : ({ s with log := s.log ++ ["rebuild latex".toList] } : St) = s1
  have e := tries_spec E (latexLine c) c.maxRetries s1
  have eb := tries_bib E (latexLine c) c.maxRetries s1
  have er : rebuildLatex c E s = { (tries E (latexLine c) c.maxRetries s1).1 with latexErr := if isPerltex c && (tries E (latexLine c) c.maxRetries s1).1.log.any (hasWord stopText) then 77 else (tries E (latexLine c) c.maxRetries s1).2.2, hist := .latex (tries E (latexLine c) c.maxRetries s1).2.1 (if isPerltex c && (tries E (latexLine c) c.maxRetries s1).1.log.any (hasWord stopText) then 77 else (tries E (latexLine c) c.maxRetries s1).2.2) :: (tries E (latexLine c) c.maxRetries s1).1.hist } := by
    rw [← hs]; rfl
  rw [er]
  generalize tries E (latexLine c) c.maxRetries s1 = q at *
  refine ⟨q.2.1, ?_, ?_, ?_, ?_, ?_, ?_, ?_, ?_, ?_⟩
  · simp only [e.hist, ← hs]
  · simp only [e.ps, ← hs]
  · simp only [e.pdf, ← hs]
  · intro l h; exact e.keeps l (by rw [← hs]; simp [h])
  · exact e.lines
  · simp only [e.aux, ← hs]
  · simp only [e.dvi, ← hs]
  · simp only [eb, ← hs]
  · show LatexCode c q.2.1 (if (isPerltex c && q.1.log.any (hasWord stopText)) = true then 77 else q.2.2)
    by_cases h : (isPerltex c && q.1.log.any (hasWord stopText)) = true
    · rw [if_pos h]
      exact .inr ⟨(Bool.and_eq_true _ _ ▸ h).1, rfl, _, e.outcome⟩
    · rw [if_neg h]
      exact .inl e.outcome

/-- What a bibtex step does: nothing if there are no citations. -/
structure BibSpec (c : Cfg) (s s' : St) (mid : List Ev) : Prop where
  hist : s'.hist = mid ++ s.hist
  between : (mid = [] ∧ s.aux ≠ some true ∧ s'.bibtexErr = 0 ∧ s'.dvi = s.dvi) ∨
    (s.aux = some true ∧ ∃ ts, mid = [.bibtex ts s'.bibtexErr] ∧ Outcome c.maxRetries ts s'.bibtexErr ∧ ∀ t ∈ ts, ∀ l ∈ t.lines, l ∈ s'.log)
  ps : s'.ps = s.ps
  pdf : s'.pdf = s.pdf
  lerr : s'.latexErr = s.latexErr
  keeps : ∀ l ∈ s.log, l ∈ s'.log

theorem rebuildBibtex_spec (c : Cfg) (E : Nat → Try) (s : St) : ∃ mid, BibSpec c s (rebuildBibtex c E s) mid := by
  by_cases h : s.aux = some true
  · generalize hs : ({ s with log := s.log ++ ["rebuild bibtex".toList] } : St) = s1
    have e := tries_spec E (bibtexLine c) c.maxRetries s1
    have el := tries_latexErr E (bibtexLine c) c.maxRetries s1
    have er : rebuildBibtex c E s = { (tries E (bibtexLine c) c.maxRetries s1).1 with bibtexErr := (tries E (bibtexLine c) c.maxRetries s1).2.2, hist := .bibtex (tries E (bibtexLine c) c.maxRetries s1).2.1 (tries E (bibtexLine c) c.maxRetries s1).2.2 :: (tries E (bibtexLine c) c.maxRetries s1).1.hist } := by
      rw [← hs]; exact if_pos h
    rw [er]
    generalize tries E (bibtexLine c) c.maxRetries s1 = q at *
    refine ⟨[.bibtex q.2.1 q.2.2], ?_, .inr ⟨h, q.2.1, rfl, e.outcome, e.lines⟩, ?_, ?_, ?_, ?_⟩
    · simp only [e.hist, ← hs]; rfl
    · simp only [e.ps, ← hs]
    · simp only [e.pdf, ← hs]
    · simp only [el, ← hs]
    · intro l hl; exact e.keeps l (by rw [← hs]; simp [hl])
  · have er : rebuildBibtex c E s = { s with bibtexErr := 0 } := if_neg h
    rw [er]
    exact ⟨[], rfl, .inl ⟨rfl, h, rfl, rfl⟩, rfl, rfl, rfl, fun _ hl => hl⟩

/-- What a whole round does. -/
structure RoundSpec (c : Cfg) (s s' : St) (t1 t2 : List Try) (rc2 : Nat) (mid : List Ev) : Prop where
  hist : s'.hist = .latex t1 s'.latexErr :: (mid ++ .latex t2 rc2 :: s.hist)
  between : (mid = [] ∧ s'.bibtexErr = 0) ∨ ∃ ts, mid = [.bibtex ts s'.bibtexErr] ∧ Outcome c.maxRetries ts s'.bibtexErr ∧ ∀ t ∈ ts, ∀ l ∈ t.lines, l ∈ s'.log
  cites : mid = [] ↔ after Try.aux t2 s.aux ≠ some true
  code1 : LatexCode c t1 s'.latexErr
  code2 : LatexCode c t2 rc2
  lines1 : ∀ t ∈ t1, ∀ l ∈ t.lines, l ∈ s'.log
  lines2 : ∀ t ∈ t2, ∀ l ∈ t.lines, l ∈ s'.log
  ps : s'.ps = s.ps
  pdf : s'.pdf = s.pdf
  dvi : ∃ d, s'.dvi = after Try.dvi t1 d

theorem round_spec (c : Cfg) (E : Nat → Try) (s : St) : ∃ t1 t2 rc2 mid, RoundSpec c s (round c E s) t1 t2 rc2 mid := by
  unfold round rebuild
  obtain ⟨t2, a⟩ := rebuildLatex_spec c E { s with log := ["Latex rebuild run".toList] }
  generalize rebuildLatex c E { s with log := ["Latex rebuild run".toList] } = s1 at a
  obtain ⟨mid, b⟩ := rebuildBibtex_spec c E s1
  generalize rebuildBibtex c E s1 = s2 at b
  obtain ⟨t1, d⟩ := rebuildLatex_spec c E s2
  generalize rebuildLatex c E s2 = s3 at d
  refine ⟨t1, t2, s1.latexErr, mid, ?_, ?_, ?_, d.code, a.code, d.lines, ?_, ?_, ?_, ⟨_, d.dvi⟩⟩
  · rw [d.hist, b.hist, a.hist]
  · rcases b.between with ⟨h1, _, h3, _⟩ | ⟨_, ts, h2, h3, h4⟩
    · exact .inl ⟨h1, by rw [d.bib, h3]⟩
    · exact .inr ⟨ts, by rw [d.bib, h2], by rw [d.bib]; exact h3, fun t ht l hl => d.keeps l (h4 t ht l hl)⟩
  · rw [← a.aux]
    rcases b.between with ⟨h1, h2, _, _⟩ | ⟨h1, ts, h2, _, _⟩
    · simp [h1, h2]
    · simp [h1, h2]
  · intro t ht l hl; exact d.keeps l (b.keeps l (a.lines t ht l hl))
  · rw [d.ps, b.ps, a.ps]
  · rw [d.pdf, b.pdf, a.pdf]

/-- The steps of latex in a history. -/
def latexRuns (h : List Ev) : List (List Try × Nat) :=
  h.filterMap fun | .latex ts rc => some (ts, rc) | .bibtex _ _ => none

/-- The initial rounds are a round too, possibly after a failed beginning. -/
theorem initial_eq (c : Cfg) (E : Nat → Try) (s : St) :
    ∃ s0, initial c E s = round c E s0 ∧ s0.ps = s.ps ∧ s0.pdf = s.pdf ∧
      ∃ evs, s0.hist = evs ++ s.hist ∧ (latexRuns evs).length ≤ 1 ∧ (∀ ts rc, Ev.latex ts rc ∈ evs → LatexCode c ts rc) ∧
        ∀ ts rc, Ev.bibtex ts rc ∈ evs → Outcome c.maxRetries ts rc := by
  by_cases h : (rebuild c E s).latexErr ≠ 0
  · refine ⟨{ rebuild c E s with aux := none }, ?_, ?_⟩
    · unfold initial round; simp only []; rw [if_pos h]
    · unfold rebuild
      obtain ⟨t2, a⟩ := rebuildLatex_spec c E { s with log := ["Latex rebuild run".toList] }
      generalize rebuildLatex c E { s with log := ["Latex rebuild run".toList] } = s1 at a
      obtain ⟨mid, b⟩ := rebuildBibtex_spec c E s1
      generalize rebuildBibtex c E s1 = s2 at b
      refine ⟨by simp only [b.ps, a.ps], by simp only [b.pdf, a.pdf], mid ++ [.latex t2 s1.latexErr], ?_, ?_, ?_, ?_⟩
      · simp only [b.hist, a.hist]; simp
      · rcases b.between with ⟨h1, _⟩ | ⟨_, ts, h1, _⟩ <;> rw [h1] <;> simp [latexRuns]
      · intro ts rc hm
        rcases b.between with ⟨h1, _⟩ | ⟨_, ts', h1, _⟩ <;> rw [h1] at hm <;> simp at hm <;> obtain ⟨rfl, rfl⟩ := hm <;> exact a.code
      · intro ts rc hm
        rcases b.between with ⟨h1, _⟩ | ⟨_, ts', h1, h2, _⟩ <;> rw [h1] at hm <;> simp at hm
        obtain ⟨rfl, rfl⟩ := hm; exact h2
  · refine ⟨s, ?_, rfl, rfl, [], rfl, by simp [latexRuns], ?_, ?_⟩
    · unfold initial round; simp only []; rw [if_neg h]
    · intro ts rc hm; cases hm
    · intro ts rc hm; cases hm

/-- What the beginning and the loop have made: the last round, all steps of the kinds described, and their number. -/
structure Made (c : Cfg) (s s' : St) (k : Nat) : Prop where
  last : ∃ s0 t1 t2 rc2 mid, RoundSpec c s0 s' t1 t2 rc2 mid
  ps : s'.ps = s.ps
  pdf : s'.pdf = s.pdf
  steps : ∃ evs, s'.hist = evs ++ s.hist ∧ (latexRuns evs).length ≤ k ∧ (∀ ts rc, Ev.latex ts rc ∈ evs → LatexCode c ts rc) ∧
    ∀ ts rc, Ev.bibtex ts rc ∈ evs → Outcome c.maxRetries ts rc

theorem latexRuns_append (a b : List Ev) : latexRuns (a ++ b) = latexRuns a ++ latexRuns b := by simp [latexRuns]

theorem round_evs {c : Cfg} {s s' : St} {t1 t2 : List Try} {rc2 : Nat} {mid : List Ev} (h : RoundSpec c s s' t1 t2 rc2 mid) :
    ∃ evs, s'.hist = evs ++ s.hist ∧ (latexRuns evs).length ≤ 2 ∧ (∀ ts rc, Ev.latex ts rc ∈ evs → LatexCode c ts rc) ∧
      ∀ ts rc, Ev.bibtex ts rc ∈ evs → Outcome c.maxRetries ts rc := by
  refine ⟨.latex t1 s'.latexErr :: (mid ++ [.latex t2 rc2]), by rw [h.hist]; simp, ?_, ?_, ?_⟩
  · rcases h.between with ⟨h1, _⟩ | ⟨ts, h1, _⟩ <;> rw [h1] <;> simp [latexRuns]
  · intro ts rc hm
    rcases h.between with ⟨h1, _⟩ | ⟨ts', h1, _⟩ <;> rw [h1] at hm <;> simp at hm <;> rcases hm with ⟨rfl, rfl⟩ | ⟨rfl, rfl⟩
    · exact h.code1
    · exact h.code2
    · exact h.code1
    · exact h.code2
  · intro ts rc hm
    rcases h.between with ⟨h1, _⟩ | ⟨ts', h1, h2, _⟩ <;> rw [h1] at hm <;> simp at hm
    obtain ⟨rfl, rfl⟩ := hm
    exact h2

theorem made_round {c : Cfg} {E : Nat → Try} {s s0 : St} {k : Nat} (hps : s0.ps = s.ps) (hpdf : s0.pdf = s.pdf)
    (h : ∃ evs, s0.hist = evs ++ s.hist ∧ (latexRuns evs).length ≤ k ∧ (∀ ts rc, Ev.latex ts rc ∈ evs → LatexCode c ts rc) ∧
      ∀ ts rc, Ev.bibtex ts rc ∈ evs → Outcome c.maxRetries ts rc) : Made c s (round c E s0) (k + 2) := by
  obtain ⟨t1, t2, rc2, mid, r⟩ := round_spec c E s0
  refine ⟨⟨s0, t1, t2, rc2, mid, r⟩, by rw [r.ps, hps], by rw [r.pdf, hpdf], ?_⟩
  obtain ⟨evs, h1, h2, h3, h4⟩ := h
  obtain ⟨evs', g1, g2, g3, g4⟩ := round_evs r
  refine ⟨evs' ++ evs, by rw [g1, h1, List.append_assoc], ?_, ?_, ?_⟩
  · rw [latexRuns_append, List.length_append]; omega
  · intro ts rc hm
    rcases List.mem_append.mp hm with hm | hm
    · exact g3 ts rc hm
    · exact h3 ts rc hm
  · intro ts rc hm
    rcases List.mem_append.mp hm with hm | hm
    · exact g4 ts rc hm
    · exact h4 ts rc hm

theorem initial_made (c : Cfg) (E : Nat → Try) (s : St) : Made c s (initial c E s) 3 := by
  obtain ⟨s0, h1, h2, h3, h4⟩ := initial_eq c E s
  rw [h1]
  exact made_round (k := 1) h2 h3 h4

theorem converge_made {c : Cfg} {E : Nat → Try} {s : St} (r : Nat) (s1 : St) (k : Nat) (h : Made c s s1 k) :
    Made c s (converge c E r s1).2 (k + 2 * r) ∧
      ((converge c E r s1).1 = true ↔ (converge c E r s1).2.log.any (hasWord rerunText) = false) := by
  induction r generalizing s1 k with
  | zero =>
    unfold converge
    by_cases hl : s1.log.any (hasWord rerunText) = true
    · rw [if_pos hl]; exact ⟨h, by simp [hl]⟩
    · rw [if_neg hl]; exact ⟨h, by simp [hl]⟩
  | succ r ih =>
    unfold converge
    by_cases hl : s1.log.any (hasWord rerunText) = true
    · rw [if_pos hl]
      have := ih (round c E s1) (k + 2) (made_round h.ps h.pdf h.steps)
      rw [show k + 2 * (r + 1) = k + 2 + 2 * r from by omega]
      exact this
    · rw [if_neg hl]
      refine ⟨⟨h.last, h.ps, h.pdf, ?_⟩, by simp [hl]⟩
      obtain ⟨evs, h1, h2, h3⟩ := h.steps
      exact ⟨evs, h1, by omega, h3⟩

end Verif.Latex
