import Verif.DepVC.Unknown

/-! # C194: unknown files are added, or ignored once and for all -/

namespace Verif.DepVC.Unknown

/-- What SHA-1 is trusted with: forty characters, and no two of the texts that occur with the same. -/
structure Hash (digest : Text → Text) (cs : List Call) : Prop where
  length : ∀ x, (digest x).length = 40
  inj : ∀ b ∈ cs, ∀ c ∈ cs, digest b.unknown.flatten = digest c.unknown.flatten → b.unknown.flatten = c.unknown.flatten

theorem line_inj {digest : Text → Text} {cs : List Call} (h : Hash digest cs) (b c : Call) (hb : b ∈ cs) (hc : c ∈ cs) :
    line digest b.dir b.unknown = line digest c.dir c.unknown ↔ b.dir = c.dir ∧ b.unknown.flatten = c.unknown.flatten := by
  unfold line
  constructor
  · intro heq
    have hl : b.dir.length = c.dir.length := by
      have := congrArg List.length heq
      simp only [List.length_append, List.length_cons, h.length] at this
      omega
    obtain ⟨h1, h2⟩ := List.append_inj heq hl
    have h3 := (List.cons.inj h2).2
    exact ⟨h1, h.inj b hb c hc (List.append_inj h3 (by rw [h.length, h.length])).1⟩
  · rintro ⟨h1, h2⟩; rw [h1, h2]

theorem run_calls {digest : Text → Text} : ∀ (cs : List Call) (file : List Text) (b : Call) (o : Out), (b, o) ∈ (run digest file cs).1 → b ∈ cs := by
  intro cs
  induction cs with
  | nil => intro file b o h; cases h
  | cons c cs ih =>
    intro file b o h
    simp only [run] at h
    rcases List.mem_cons.mp h with h | h
    · rw [(Prod.mk.inj h).1]; exact List.mem_cons_self ..
    · exact List.mem_cons_of_mem _ (ih _ b o h)

theorem run_file {digest : Text → Text} (l : Text) : ∀ (cs : List Call) (file : List Text), l ∈ (run digest file cs).2 ↔
    l ∈ file ∨ ∃ c, (c, Out.ignored) ∈ (run digest file cs).1 ∧ l = line digest c.dir c.unknown := by
  intro cs
  induction cs with
  | nil => intro file; simp [run]
  | cons c cs ih =>
    intro file
    simp only [run]
    rw [ih]
    have key : l ∈ (commitUnknown digest file c).1 ↔ l ∈ file ∨ ((commitUnknown digest file c).2 = .ignored ∧ l = line digest c.dir c.unknown) := by
      unfold commitUnknown
      split
      · cases ha : ask c.answers <;> simp
      · simp
    rw [key]
    constructor
    · rintro ((h | ⟨h1, h2⟩) | ⟨x, h1, h2⟩)
      · exact Or.inl h
      · exact Or.inr ⟨c, by rw [h1]; exact List.mem_cons_self .., h2⟩
      · exact Or.inr ⟨x, List.mem_cons_of_mem _ h1, h2⟩
    · rintro (h | ⟨x, h1, h2⟩)
      · exact Or.inl (Or.inl h)
      · rcases List.mem_cons.mp h1 with h1 | h1
        · obtain ⟨rfl, h1⟩ := Prod.mk.inj h1
          exact Or.inl (Or.inr ⟨h1.symm, h2⟩)
        · exact Or.inr ⟨x, h1, h2⟩

/-- C194: after any runs, another one asks unless there are no unknown files or files whose names, put together, read the same were ignored in this directory; the first answer `ignore` or `add` is followed; without one it asks for ever. -/
theorem unknown_partial (digest : Text → Text) (cs : List Call) (c : Call) (h : Hash digest (c :: cs)) :
    ((c.unknown = [] ∨ ∃ b, (b, Out.ignored) ∈ (run digest [] cs).1 ∧ b.dir = c.dir ∧ b.unknown.flatten = c.unknown.flatten) →
      (commitUnknown digest (run digest [] cs).2 c).2 = .silent) ∧
    (¬ (c.unknown = [] ∨ ∃ b, (b, Out.ignored) ∈ (run digest [] cs).1 ∧ b.dir = c.dir ∧ b.unknown.flatten = c.unknown.flatten) →
      (commitUnknown digest (run digest [] cs).2 c).2 = ask c.answers) := by
  have hm : line digest c.dir c.unknown ∈ (run digest [] cs).2 ↔ ∃ b, (b, Out.ignored) ∈ (run digest [] cs).1 ∧ b.dir = c.dir ∧ b.unknown.flatten = c.unknown.flatten := by
    rw [run_file]
    simp only [List.not_mem_nil, false_or]
    constructor
    · rintro ⟨b, h1, h2⟩
      obtain ⟨h3, h4⟩ := (line_inj h c b (List.mem_cons_self ..) (List.mem_cons_of_mem _ (run_calls _ _ _ _ h1))).mp h2
      exact ⟨b, h1, h3.symm, h4.symm⟩
    · rintro ⟨b, h1, h2, h3⟩
      exact ⟨b, h1, by unfold line; rw [h2, h3]⟩
  rw [← hm]
  unfold commitUnknown haveUnknown
  constructor
  · intro hc
    by_cases hu : c.unknown = []
    · simp [hu]
    · simp [hu, hc.resolve_left hu]
  · intro hc
    simp only [not_or] at hc
    rw [if_neg hc.1]
    simp only [hc.2, decide_false, Bool.not_false, if_true]
    cases ask c.answers <;> rfl

/-- C194: the same files are not asked about twice once they have been ignored. -/
theorem unknown_once (digest : Text → Text) (cs : List Call) (b c : Call) (h : Hash digest (c :: cs)) (hb : (b, Out.ignored) ∈ (run digest [] cs).1)
    (hd : c.dir = b.dir) (hu : c.unknown = b.unknown) : (commitUnknown digest (run digest [] cs).2 c).2 = .silent := by
  exact (unknown_partial digest cs c h).1 (Or.inr ⟨b, hb, hd.symm, by rw [hu]⟩)

theorem ask_words (as : List Text) : (ask as = .stuck ↔ wordIgnore ∉ as ∧ wordAdd ∉ as) ∧ ask as ≠ .silent := by
  induction as with
  | nil => simp [ask]
  | cons a as ih =>
    unfold ask
    by_cases h1 : a = wordIgnore
    · rw [if_pos h1]; simp [h1]
    · rw [if_neg h1]
      by_cases h2 : a = wordAdd
      · rw [if_pos h2]; simp [h2]
      · rw [if_neg h2]
        refine ⟨?_, ih.2⟩
        rw [ih.1]
        simp only [List.mem_cons, not_or]
        exact ⟨fun h => ⟨⟨fun e => h1 e.symm, h.1⟩, fun e => h2 e.symm, h.2⟩, fun h => ⟨h.1.2, h.2.2⟩⟩

/-- What the property asks: nothing is passed over but what was ignored. -/
def OnlyIgnored (digest : Text → Text) : Prop := ∀ cs c, c.unknown ≠ [] → (commitUnknown digest (run digest [] cs).2 c).2 = .silent →
  ∃ b, (b, Out.ignored) ∈ (run digest [] cs).1 ∧ b.dir = c.dir ∧ b.unknown = c.unknown

/-- C194, false of the code: once the files `a` and `bc` have been ignored, the files `ab` and `c` are not committed and nobody is asked. -/
theorem unknown_false (digest : Text → Text) : ¬ OnlyIgnored digest := by
  intro ho
  let b : Call := { dir := ['/'], unknown := [['a'], ['b', 'c']], answers := [wordIgnore] }
  let c : Call := { dir := ['/'], unknown := [['a', 'b'], ['c']], answers := [] }
  have hb : (run digest [] [b]).1 = [(b, Out.ignored)] := rfl
  have hs : (commitUnknown digest (run digest [] [b]).2 c).2 = .silent := by
    have : (run digest [] [b]).2 = [line digest c.dir c.unknown] := rfl
    unfold commitUnknown haveUnknown
    rw [this, if_neg (show c.unknown ≠ [] by decide)]
    simp
  obtain ⟨x, h1, _, h3⟩ := ho [b] c (by decide) hs
  rw [hb] at h1
  obtain ⟨rfl, _⟩ := Prod.mk.inj (List.mem_singleton.mp h1)
  exact absurd h3 (by decide)

/-- C194, false of the code: at the end of the input the question is repeated for ever. -/
theorem unknown_eof_false (digest : Text → Text) : (commitUnknown digest [] { dir := ['/'], unknown := [['a']], answers := [['n', 'o']] }).2 = .stuck := by
  rfl

/-- A stand-in for SHA-1 that tells short texts apart. -/
def pad (x : Text) : Text := x.take 40 ++ List.replicate (40 - x.length) '.'

def history : List Call := [⟨['/'], [['a']], [['?'], wordIgnore]⟩, ⟨['/'], [['a']], []⟩, ⟨['/'], [['a'], ['b']], [wordAdd]⟩]

/-- The hypotheses are met by a history that asks, is told to ignore, is silent then, asks about more files, and adds them. -/
example : Hash pad history ∧ (run pad [] history).1.map (·.2) = [.ignored, .silent, .added] := by
  refine ⟨⟨fun x => by unfold pad; simp only [List.length_append, List.length_take, List.length_replicate]; omega, ?_⟩, by decide +kernel⟩
  decide +kernel

end Verif.DepVC.Unknown
