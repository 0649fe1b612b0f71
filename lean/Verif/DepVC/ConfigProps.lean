import Verif.DepVC.Config

/-! # deptool.config (C248) -/

namespace Verif.DepVC.Config

open Verif.Deptool.Deps (Text isWord parseDependency)

/-! ## Specification: the documentation (lines 3978-4019) -/

/-- A string without newlines. -/
def Plain (t : Text) : Prop := t ≠ [] ∧ '\n' ∉ t

/-- The name of a dependency: a project, or a project and the type of its build, a word. -/
def DepName (t : Text) : Prop :=
  Plain t ∧ (';' ∉ t ∨ ∃ p w, t = p ++ ';' :: w ∧ ';' ∉ p ∧ p ≠ [] ∧ w ≠ [] ∧ ∀ c ∈ w, c.isAlphanum = true ∨ c = '_')

/-- What each option may be. -/
def ValidAt (k : Text) (v : Val) : Prop :=
  v = .atom .undef ∨
  (k = "parallel_test".toList ∧ (v = .atom (.str ['0']) ∨ v = .atom (.str ['1']))) ∨
  (k = "parallel_test_path".toList ∧ ∃ t, v = .atom (.ref "CODE".toList t)) ∨
  (k = "sequential_tests".toList ∧ ∃ es t, v = .array es t ∧ ∀ e ∈ es, ∃ u, e = .ref "Regexp".toList u) ∨
  (k = "dependencies".toList ∧ ∃ es t, v = .array es t ∧ ∀ e ∈ es, ∃ u, e = .str u ∧ DepName u) ∨
  (k = "untested_repository".toList ∧ ∃ t, v = .atom (.str t)) ∨
  k ∉ ["parallel_test".toList, "parallel_test_path".toList, "sequential_tests".toList, "dependencies".toList, "untested_repository".toList]

/-- Every option is as documented. -/
def Valid (h : Hash) : Prop := ∀ e ∈ h, ValidAt e.1 e.2

/-! ## Lemmas -/

theorem get_mem (h : Hash) (k : Text) (hd : defd (get h k) = true) : (k, get h k) ∈ h := by
  unfold get at hd ⊢
  cases hf : h.find? fun e => e.1 = k with
  | none => rw [hf] at hd; cases hd
  | some e =>
    have h1 := List.find?_some hf
    have h2 := List.mem_of_find?_eq_some hf
    simp only [decide_eq_true_eq] at h1
    rw [← h1]
    exact h2

theorem valid_get (h : Hash) (hv : Valid h) (k : Text) (hd : defd (get h k) = true) : ValidAt k (get h k) :=
  hv _ (get_mem h k hd)

theorem trimEnd_plain (t : Text) (h : '\n' ∉ t) : trimEnd t = t := by
  unfold trimEnd
  rw [if_neg]
  intro he
  exact h (List.mem_of_getLast? he)

theorem names : kParallel = "parallel_test".toList ∧ kPath = "parallel_test_path".toList ∧ kSequential = "sequential_tests".toList ∧
    kDeps = "dependencies".toList ∧ kUntested = "untested_repository".toList := by
  decide

/-- What `trimEnd` leaves. -/
theorem trimEnd_iff (t u : Text) (hu : '\n' ∉ u) : trimEnd t = u ↔ t = u ∨ t = u ++ ['\n'] := by
  constructor
  · intro h
    unfold trimEnd at h
    split at h
    · rename_i hl
      right
      have hne : t ≠ [] := by
        intro he
        rw [he] at hl
        cases hl
      rw [List.getLast?_eq_some_getLast hne, Option.some.injEq] at hl
      rw [← h, ← hl, List.dropLast_concat_getLast hne]
    · exact Or.inl h
  · rintro (rfl | rfl)
    · exact trimEnd_plain _ hu
    · simp [trimEnd]

theorem zeroOne_iff (t : Text) : zeroOne t = true ↔ t ∈ [['0'], ['1'], ['0', '\n'], ['1', '\n']] := by
  unfold zeroOne
  simp only [Bool.or_eq_true, beq_iff_eq]
  rw [trimEnd_iff t ['0'] (by decide), trimEnd_iff t ['1'] (by decide)]
  simp only [List.mem_cons, List.not_mem_nil, or_false, List.cons_append, List.nil_append]
  constructor
  · rintro ((h | h) | (h | h)) <;> simp [h]
  · rintro (h | h | h | h) <;> simp [h]

theorem depOk_iff (t : Text) : depOk t = true ↔ ∃ u, Plain u ∧ (t = u ∨ t = u ++ ['\n']) := by
  unfold depOk Plain
  constructor
  · intro h
    simp only [Bool.and_eq_true, Bool.not_eq_true', ← Bool.not_eq_true, List.contains_iff_mem] at h
    refine ⟨trimEnd t, ⟨?_, h.2⟩, (trimEnd_iff t _ h.2).mp rfl⟩
    simpa using h.1
  · rintro ⟨u, ⟨h1, h2⟩, h3⟩
    have := (trimEnd_iff t u h2).mpr h3
    simp [this, h1, h2]

theorem isRegexp_iff (n : Text) : isRegexp n = true ↔ ∃ p, n = p ++ ['R', 'e', 'g', 'e', 'x', 'p'] ∧ ∀ c, p.getLast? = some c → ¬ (c.isAlphanum = true ∨ c = '_') := by
  unfold isRegexp
  constructor
  · intro h
    split at h
    · rename_i r hr
      refine ⟨r.reverse, ?_, ?_⟩
      · have := congrArg List.reverse hr
        simpa using this
      · intro c hc
        rw [List.getLast?_reverse] at hc
        rw [hc] at h
        simpa [isWord] using h
    · cases h
  · rintro ⟨p, rfl, hp⟩
    have : (p ++ ['R', 'e', 'g', 'e', 'x', 'p']).reverse = 'p' :: 'x' :: 'e' :: 'g' :: 'e' :: 'R' :: p.reverse := by simp
    rw [this]
    show (!(p.reverse.head?.any isWord)) = true
    rw [List.head?_reverse]
    cases hc : p.getLast? with
    | none => rfl
    | some c =>
      have := hp c hc
      simpa [isWord] using this

/-! ## C248 -/

/-- Exactly which configurations are accepted, option by option. -/
theorem config_iff (h : Hash) : (readConfig h).isSome = true ↔
    (defd (get h "parallel_test".toList) = true → (get h "parallel_test".toList).text ∈ [['0'], ['1'], ['0', '\n'], ['1', '\n']]) ∧
    (defd (get h "parallel_test_path".toList) = true → ∃ t, get h "parallel_test_path".toList = .atom (.ref "CODE".toList t)) ∧
    (defd (get h "sequential_tests".toList) = true → ∃ es t, get h "sequential_tests".toList = .array es t ∧
      ∀ e ∈ es, ∃ p u, e = .ref (p ++ "Regexp".toList) u ∧ ∀ c, p.getLast? = some c → ¬ (c.isAlphanum = true ∨ c = '_')) ∧
    (defd (get h "dependencies".toList) = true → ∃ es t, get h "dependencies".toList = .array es t ∧
      ∀ e ∈ es, ∃ u, Plain u ∧ (e.text = u ∨ e.text = u ++ ['\n'])) := by
  obtain ⟨n1, n2, n3, n4, -⟩ := names
  rw [← n1, ← n2, ← n3, ← n4]
  have hsome : (readConfig h).isSome = true ↔ check h = true := by
    unfold readConfig
    cases check h <;> simp
  rw [hsome]
  unfold check
  simp only [Bool.and_eq_true, Bool.or_eq_true, Bool.not_eq_true']
  have imp : ∀ (b : Bool) (P : Prop), (b = false ∨ P) ↔ (b = true → P) := by
    intro b P
    cases b <;> simp
  simp only [imp, zeroOne_iff, and_assoc]
  refine and_congr Iff.rfl (and_congr ?_ (and_congr ?_ ?_))
  · refine imp_congr_right fun _ => ?_
    cases hv : get h kPath with
    | array es t => simp [Val.refName]
    | atom a =>
      cases a with
      | undef => simp [Val.refName, Atom.refName]
      | str t => simp [Val.refName, Atom.refName]
      | ref n t => simp [Val.refName, Atom.refName]
  · refine imp_congr_right fun _ => ?_
    cases hv : get h kSequential with
    | atom a => simp
    | array es t =>
      simp only [List.all_eq_true, isRegexp_iff, Val.array.injEq]
      constructor
      · intro hall
        refine ⟨es, t, ⟨rfl, rfl⟩, fun e he => ?_⟩
        obtain ⟨p, hp, hc⟩ := hall e he
        cases e with
        | undef => exact absurd hp (by simp [Atom.refName])
        | str u => exact absurd hp (by simp [Atom.refName])
        | ref n u => exact ⟨p, u, by rw [show n = p ++ ['R', 'e', 'g', 'e', 'x', 'p'] from hp]; rfl, hc⟩
      · rintro ⟨es', t', ⟨rfl, rfl⟩, hall⟩ e he
        obtain ⟨p, u, rfl, hc⟩ := hall e he
        exact ⟨p, rfl, hc⟩
  · refine imp_congr_right fun _ => ?_
    cases hv : get h kDeps with
    | atom a => simp
    | array es t =>
      simp only [List.all_eq_true, depOk_iff, Val.array.injEq]
      constructor
      · intro hall
        exact ⟨es, t, ⟨rfl, rfl⟩, hall⟩
      · rintro ⟨es', t', ⟨rfl, rfl⟩, hall⟩
        exact hall

/-- A configuration as documented is accepted; the dependencies are the strings listed, in order. -/
theorem valid_accepted (h : Hash) (hv : Valid h) : (readConfig h).isSome = true ∧
    ∀ es t, get h "dependencies".toList = .array es t → (getVCDeps h).map Atom.str = es := by
  constructor
  · rw [config_iff]
    refine ⟨fun hd => ?_, fun hd => ?_, fun hd => ?_, fun hd => ?_⟩
    all_goals
      have := valid_get h hv _ hd
      rcases this with h1 | ⟨hk, h1⟩ | ⟨hk, h1⟩ | ⟨hk, h1⟩ | ⟨hk, h1⟩ | ⟨hk, h1⟩ | h1
    all_goals try (exfalso; exact absurd hk (by decide))
    all_goals try (exfalso; exact absurd h1 (by decide))
    all_goals try (exfalso; rw [h1] at hd; cases hd)
    · rcases h1 with h1 | h1 <;> rw [h1] <;> decide
    · exact h1
    · obtain ⟨es, t, e1, e2⟩ := h1
      refine ⟨es, t, e1, fun e he => ?_⟩
      obtain ⟨u, rfl⟩ := e2 e he
      exact ⟨[], u, rfl, fun c hc => by cases hc⟩
    · obtain ⟨es, t, e1, e2⟩ := h1
      refine ⟨es, t, e1, fun e he => ?_⟩
      obtain ⟨u, rfl, hu⟩ := e2 e he
      exact ⟨u, hu.1, Or.inl rfl⟩
  · intro es t hg
    have hm := get_mem h "dependencies".toList (by rw [hg]; rfl)
    rw [hg] at hm
    unfold getVCDeps
    rw [names.2.2.2.1, hg]
    simp only [List.map_map]
    have hm' : ValidAt "dependencies".toList (.array es t) := hv _ hm
    rcases hm' with h1 | ⟨hk, h1⟩ | ⟨hk, h1⟩ | ⟨hk, h1⟩ | ⟨hk, h1⟩ | ⟨hk, h1⟩ | h1
    · cases h1
    · exact absurd hk (by decide)
    · exact absurd hk (by decide)
    · exact absurd hk (by decide)
    · obtain ⟨es', t', e1, e2⟩ := h1
      simp only [Val.array.injEq] at e1
      obtain ⟨rfl, rfl⟩ := e1
      conv => rhs; rw [← List.map_id es]
      refine List.map_congr_left fun e he => ?_
      obtain ⟨u, rfl, -⟩ := e2 e he
      rfl
    · exact absurd hk (by decide)
    · exact absurd h1 (by decide)

/-- It warns about exactly the keys that are not documented, and only if it does not die. -/
theorem warned_iff (h : Hash) (ws : List Text) (hr : readConfig h = some ws) (k : Text) :
    k ∈ ws ↔ (∃ v, (k, v) ∈ h) ∧
      k ∉ ["parallel_test".toList, "parallel_test_path".toList, "sequential_tests".toList, "dependencies".toList, "untested_repository".toList] := by
  unfold readConfig at hr
  split at hr
  · simp only [Option.some.injEq] at hr
    subst hr
    obtain ⟨n1, n2, n3, n4, n5⟩ := names
    simp only [expected, n1, n2, n3, n4, n5, List.mem_filter, List.mem_map, Bool.not_eq_true', ← Bool.not_eq_true, List.contains_iff_mem]
    constructor
    · rintro ⟨⟨e, he, rfl⟩, hk⟩
      refine ⟨⟨e.2, he⟩, fun hm => hk ?_⟩
      simp only [List.mem_cons] at hm ⊢
      rcases hm with h | h | h | h | h | h <;> simp [h]
    · rintro ⟨⟨v, hv⟩, hk⟩
      refine ⟨⟨(k, v), hv, rfl⟩, fun hm => hk ?_⟩
      simp only [List.mem_cons] at hm ⊢
      rcases hm with h | h | h | h | h | h <;> simp [h]
  · cases hr

/-- False: that a dependency with a wrong type is refused. The pattern demands nothing of what follows the separator; such a line is
then the name of a project that contains the separator. -/
theorem dep_type_false : (readConfig [(kDeps, .array [.str ['L', ';', 'x', '-', 'y']] ['A'])]).isSome = true ∧
    ¬ DepName ['L', ';', 'x', '-', 'y'] ∧ parseDependency ['L', ';', 'x', '-', 'y'] = (['L', ';', 'x', '-', 'y'], []) := by
  refine ⟨by decide, ?_, by decide⟩
  rintro ⟨-, h | ⟨p, w, h1, h2, -, -, h3⟩⟩
  · exact h (by decide)
  · have hp : p = ['L'] := by
      match p, h1 with
      | [], h => cases h
      | [c], h => cases h; rfl
      | c :: d :: p, h =>
        simp only [List.cons_append, List.cons.injEq] at h
        exact absurd h2 (by simp [← h.2.1])
    subst hp
    cases h1
    have := h3 '-' (by decide)
    revert this
    decide

/-- False: that dependencies are strings. A reference is accepted, and is the dependency with the text it turns into. -/
theorem dep_ref_false : (readConfig [(kDeps, .array [.ref ['A', 'R', 'R', 'A', 'Y'] ['A', 'R', 'R', 'A', 'Y', '(', '0', 'x', '1', ')']] ['A'])]).isSome = true ∧
    getVCDeps [(kDeps, .array [.ref ['A', 'R', 'R', 'A', 'Y'] ['A', 'R', 'R', 'A', 'Y', '(', '0', 'x', '1', ')']] ['A'])] = [['A', 'R', 'R', 'A', 'Y', '(', '0', 'x', '1', ')']] := by
  decide

/-- False: that the repository for untested changes is checked: anything is accepted. -/
theorem untested_false (v : Val) : readConfig [(kUntested, v)] = some [] := by
  rfl

/-- False: that the strings have no newline. -/
theorem newline_false : (readConfig [(kParallel, .atom (.str ['1', '\n'])), (kDeps, .array [.str ['L', '\n']] ['A'])]).isSome = true := by
  decide

/-! ### The hypotheses are met -/

example : Valid [("parallel_test".toList, .atom (.str ['1'])), ("dependencies".toList, .array [.str ['L', ';', 'x']] ['A'])] := by
  intro e he
  simp only [List.mem_cons, List.not_mem_nil, or_false] at he
  rcases he with rfl | rfl
  · exact Or.inr (Or.inl ⟨rfl, Or.inr rfl⟩)
  · refine Or.inr (Or.inr (Or.inr (Or.inr (Or.inl ⟨rfl, _, _, rfl, fun e he => ?_⟩))))
    simp only [List.mem_cons, List.not_mem_nil, or_false] at he
    subst he
    exact ⟨_, rfl, ⟨by decide, by decide⟩, Or.inr ⟨['L'], ['x'], rfl, by decide, by decide, by decide, by decide⟩⟩

example : readConfig [(kParallel, .atom (.str ['2']))] = none ∧ readConfig [(['x'], .atom .undef)] = some [['x']] := by decide

end Verif.DepVC.Config
