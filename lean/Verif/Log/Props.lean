import Verif.Log.Lemmas
import Verif.Log.Parse
import Verif.Num.Lemmas

/-!
# C51 (debug levels) and C97 (the debug string)
-/

namespace Verif.Log
open Verif.Str Verif.Log.Spec

theorem actual_eq {c : Str} {calls : List Op} {v : Nat} (h : Actual c calls v) :
    v = actual c calls := by
  obtain ⟨b, e, a, rfl, h1, h2, rfl⟩ := h
  have hb : before c (b ++ e :: a) = b := by
    unfold before
    rw [List.takeWhile_append_of_pos (by intro x hx; rw [h2 x hx]; rfl),
      List.takeWhile_cons_of_neg (by rw [h1]; simp), List.append_nil]
  have hf : fromFirst c (b ++ e :: a) = e :: a := by
    unfold fromFirst
    rw [List.dropWhile_append_of_pos (by intro x hx; rw [h2 x hx]; rfl),
      List.dropWhile_cons_of_neg (by rw [h1]; simp)]
  unfold actual
  rw [hb, hf]

theorem actual_unmentioned {c : Str} {calls : List Op} (h : ∀ x ∈ calls, mentions c x = false) :
    actual c calls = ((given c calls).head?).getD 0 := by
  have hb : before c calls = calls := by
    unfold before
    induction calls with
    | nil => rfl
    | cons x t ih =>
      rw [List.takeWhile_cons_of_pos (by rw [h x List.mem_cons_self]; rfl),
        ih (fun y hy => h y (List.mem_cons_of_mem _ hy))]
  have hf : fromFirst c calls = [] := by
    unfold fromFirst
    clear hb
    induction calls with
    | nil => rfl
    | cons x t ih =>
      rw [List.dropWhile_cons_of_pos (by rw [h x List.mem_cons_self]; rfl),
        ih (fun y hy => h y (List.mem_cons_of_mem _ hy))]
  unfold actual
  rw [hb, hf]; rfl

/-- C51, what is true of the code: after any calls, asking by name (the answer may abort when
there is no room for a new category) compares with the latest setting since the first
mention, else the first pattern before it. -/
theorem log_level_actual (ops : List Op) (s : Data) (h : run ops = .ok s) (c : Str) (lvl : Nat)
    (b : Bool) (s' : Data) (hw : wouldDebug s c lvl = .ok (b, s')) :
    b = decide (lvl ≤ actual c ops) := by
  unfold wouldDebug at hw
  rw [Res.bind_eq_ok] at hw
  obtain ⟨⟨id, s1⟩, hc, hw⟩ := hw
  rw [Res.bind_eq_ok] at hw
  obtain ⟨b', hb, hw⟩ := hw
  cases hw
  obtain ⟨hI, hf⟩ := inv_use (inv_run h) c hc
  obtain ⟨v, hv, hA⟩ := hI.known c _ hf
  have hv' := actual_eq hA
  unfold wouldDebugId at hb
  simp only [hv, Res.ok.injEq] at hb
  rw [← hb, hv']
  congr 1
  -- asking is itself a mention, which changes no level
  by_cases hm : ∃ x ∈ ops, mentions c x = true
  · have hfind : ∃ e, s.ids.find? (fun e => e.1 == c) = some e := by
      cases hh : s.ids.find? (fun e => e.1 == c) with
      | some e => exact ⟨e, rfl⟩
      | none =>
        obtain ⟨x, hx, hx'⟩ := hm
        rw [(inv_run h).unknown c hh x hx] at hx'
        cases hx'
    obtain ⟨e, he⟩ := hfind
    obtain ⟨v0, _, hA0⟩ := (inv_run h).known c e he
    have h1 := actual_eq (actual_snoc hA0 (.use c))
    have h2 := actual_eq hA0
    rw [← h1, ← h2]; rfl
  · have hno : ∀ x ∈ ops, mentions c x = false := by
      intro x hx
      cases hxm : mentions c x with
      | false => rfl
      | true => exact absurd ⟨x, hx, hxm⟩ hm
    have h1 := actual_eq (actual_new (o := .use c) (c := c) (by simp [mentions]) hno)
    rw [← h1, actual_unmentioned hno]; rfl

theorem given_split (c : Str) (calls : List Op) :
    given c calls = given c (before c calls) ++ given c (fromFirst c calls) := by
  rw [← given_append]
  unfold before fromFirst
  rw [List.takeWhile_append_dropWhile]

theorem head_last_agree {l : List Nat} (h : ∀ x ∈ l, ∀ y ∈ l, x = y) : l.head? = l.getLast? := by
  cases l with
  | nil => rfl
  | cons a t =>
    rw [List.head?_cons, List.getLast?_eq_some_getLast (List.cons_ne_nil a t)]
    congr 1
    exact h _ List.mem_cons_self _ (List.getLast_mem _)

/-- C51: the level is the latest matching setting, whenever the category was first used,
provided the patterns that matched it before its first use all gave the same level (in
particular when there was at most one).  Missing: several different matching patterns before
the first use (`log_order_false`). -/
theorem log_level_partial (ops : List Op) (s : Data) (h : run ops = .ok s) (c : Str)
    (hagree : ∀ x ∈ given c (before c ops), ∀ y ∈ given c (before c ops), x = y)
    (lvl : Nat) (b : Bool) (s' : Data) (hw : wouldDebug s c lvl = .ok (b, s')) :
    b = decide (lvl ≤ expected c ops) := by
  rw [log_level_actual ops s h c lvl b s' hw]
  congr 2
  unfold actual expected
  rw [given_split c ops, List.getLast?_append, head_last_agree hagree]
  cases (given c (fromFirst c ops)).getLast? <;> rfl

/-- The hypotheses are met: `a*` set to 3, then "ab" used, then `ab` set to 2. -/
example : ∃ s, run [.set [97, 42] 3, .use [97, 98], .set [97, 98] 2] = .ok s ∧
    (wouldDebug s [97, 98] 2).map Prod.fst = .ok true ∧
    (wouldDebug s [97, 98] 3).map Prod.fst = .ok false ∧
    (wouldDebug s [97, 99] 3).map Prod.fst = .ok true ∧
    expected [97, 98] [.set [97, 42] 3, .use [97, 98], .set [97, 98] 2] = 2 :=
  ⟨_, rfl, by decide, by decide, by decide, by decide⟩

/-- C51 is false: with the patterns `a*` at level 1 and then `a*` at level 2, category "ab" has
level 1 when first used afterwards and level 2 when first used before. -/
theorem log_order_false : ∃ (sets : List Op) (c : Str) (s1 s2 : Data),
    run (sets ++ [.use c]) = .ok s1 ∧ run (.use c :: sets) = .ok s2 ∧
    (wouldDebug s1 c 2).map Prod.fst = .ok false ∧ (wouldDebug s2 c 2).map Prod.fst = .ok true :=
  ⟨[.set [97, 42] 1, .set [97, 42] 2], [97, 98], _, _, rfl, rfl, by decide, by decide⟩

/-- Levels are cut to 8 bits: setting 256 switches the category off. -/
theorem log_truncate_false : ∃ s, run [.set [97] 256] = .ok s ∧
    (wouldDebug s [97] 1).map Prod.fst = .ok false := ⟨_, rfl, by decide⟩

/-- A `Category` object stays valid for ever: its id gives the same answer as asking by
name, whatever was called in between. -/
theorem log_category_id (ops1 ops2 : List Op) (s1 s2 s3 : Data) (c : Str) (id : Nat)
    (h1 : run ops1 = .ok s1) (hc : categoryToId s1 c = .ok (id, s2))
    (h2 : runFrom s2 ops2 = .ok s3) (lvl : Nat) :
    wouldDebugId s3 id lvl = .ok (decide (lvl ≤ actual c (ops1 ++ .use c :: ops2))) ∧
    getDebugLevel s3 id = .ok (actual c (ops1 ++ .use c :: ops2)) := by
  obtain ⟨hI, hf⟩ := inv_use (inv_run h1) c hc
  have hI3 := inv_runFrom ops2 _ s2 s3 hI h2
  have hf3 := runFrom_keeps ops2 s2 s3 h2 c _ hf
  obtain ⟨v, hv, hA⟩ := hI3.known c _ hf3
  have := actual_eq hA
  rw [List.append_assoc] at this
  simp only [List.cons_append, List.nil_append] at this
  unfold wouldDebugId getDebugLevel
  simp only [hv]
  rw [this]
  exact ⟨rfl, rfl⟩

/-! ## When the calls succeed -/

theorem removeAll_one (c : Str) (l : List Str) : [c].removeAll l = if c ∈ l then [] else [c] := by
  unfold List.removeAll
  by_cases h : c ∈ l
  · rw [if_pos h, List.filter_cons_of_neg (by simp [h]), List.filter_nil]
  · rw [if_neg h, List.filter_cons_of_pos (by simp [h]), List.filter_nil]

/-- The table holds the categories in order of first mention. -/
theorem run_names {ops : List Op} : ∀ {s : Data}, run ops = .ok s →
    s.ids.map Prod.fst = categories ops := by
  have key : ∀ (n : Nat) (ops : List Op), ops.length = n → ∀ s, run ops = .ok s →
      s.ids.map Prod.fst = categories ops := by
    intro n
    induction n with
    | zero =>
      intro ops hn s h
      have : ops = [] := List.length_eq_zero_iff.1 hn
      subst this
      cases h; rfl
    | succ n ih =>
      intro ops hn s h
      have hne : ops ≠ [] := by intro hh; rw [hh] at hn; simp at hn
      obtain ⟨t, o, rfl⟩ : ∃ t o, ops = t ++ [o] :=
        ⟨ops.dropLast, ops.getLast hne, (List.dropLast_concat_getLast hne).symm⟩
      rw [run_snoc, Res.bind_eq_ok] at h
      obtain ⟨s1, h1, h⟩ := h
      have ih1 := ih t (by simpa using hn) s1 h1
      have locked : ∀ (c : Str) (r : Nat × Data), named o = some c →
          lockedCategoryToId s1 c = .ok r → r.2.ids.map Prod.fst = categories (t ++ [o]) := by
        intro c r hno hl
        unfold categories
        rw [List.filterMap_append, List.filterMap_cons_some hno, List.filterMap_nil,
          List.eraseDups_append]
        unfold categories at ih1
        rw [← ih1]
        unfold lockedCategoryToId at hl
        split at hl
        · next e he =>
          cases hl
          obtain ⟨hec, hem⟩ := find_eq he
          have hin : c ∈ t.filterMap named := by
            rw [← List.mem_eraseDups, ← ih1, ← hec]
            exact List.mem_map_of_mem hem
          rw [removeAll_one, if_pos hin, List.eraseDups_nil, List.append_nil]
        · next he =>
          rw [Res.bind_eq_ok] at hl
          obtain ⟨_, _, hl⟩ := hl
          cases hl
          have hin : c ∉ t.filterMap named := by
            rw [← List.mem_eraseDups, ← ih1]
            intro hm
            obtain ⟨e, he1, he2⟩ := List.mem_map.1 hm
            rw [List.find?_eq_none] at he
            exact he e he1 (by simp [he2])
          rw [removeAll_one, if_neg hin, List.map_append]
          rfl
      have same : named o = none → categories (t ++ [o]) = categories t := by
        intro hno
        unfold categories
        rw [List.filterMap_append, List.filterMap_cons_none hno, List.filterMap_nil,
          List.append_nil]
      cases o with
      | use c =>
        obtain ⟨id, h⟩ := step_use h
        unfold categoryToId at h
        rw [Res.bind_eq_ok] at h
        obtain ⟨r, hl, h⟩ := h
        cases h
        rw [(limitWarning_ids _ _).1]
        exact locked c r rfl hl
      | set name level =>
        change setDebugLevel s1 name level = _ at h
        unfold setDebugLevel at h
        simp only [] at h
        split at h
        · next hp =>
          rw [Res.bind_eq_ok] at h
          obtain ⟨_, _, h⟩ := h
          rw [Res.bind_eq_ok] at h
          obtain ⟨_, _, h⟩ := h
          cases h
          rw [same (by simp only [named, if_pos hp])]
          exact ih1
        · next hp =>
          rw [Res.bind_eq_ok] at h
          obtain ⟨r, hl, h⟩ := h
          rw [Res.bind_eq_ok] at h
          obtain ⟨_, _, h⟩ := h
          rw [Res.bind_eq_ok] at h
          obtain ⟨_, _, h⟩ := h
          cases h
          rw [(limitWarning_ids _ _).1]
          exact locked name r (by simp only [named, if_neg hp]) hl
      | reserve n =>
        change reserveCategories s1 n = _ at h
        unfold reserveCategories at h
        rw [Res.bind_eq_ok] at h
        obtain ⟨_, _, h⟩ := h
        cases h
        rw [same rfl]
        exact ih1
  intro s h
  exact key _ ops rfl s h

/-- Ids are the positions in order of first mention. -/
theorem log_id_order (ops : List Op) (s : Data) (h : run ops = .ok s) :
    s.ids = (categories ops).zipIdx ∧ s.levels.length = (categories ops).length := by
  have h1 := run_names h
  have h2 := (inv_run h).idsRange
  have hl : s.levels.length = (categories ops).length := by
    have := congrArg List.length h2
    rw [List.length_map, List.length_range] at this
    rw [← this, ← h1, List.length_map]
  refine ⟨?_, hl⟩
  rw [List.zipIdx_eq_zip_range', ← h1, ← List.range_eq_range', List.length_map]
  have : s.ids.length = s.levels.length := by
    have := congrArg List.length h2
    rwa [List.length_map, List.length_range] at this
  rw [this, ← h2]
  exact List.zip_of_prod rfl rfl

/-- The patterns are counted. -/
theorem run_patterns (ops : List Op) (s : Data) (h : run ops = .ok s) :
    s.pats.length = patterns ops := by
  rw [(inv_run h).pats]
  unfold patterns
  clear h
  induction ops with
  | nil => rfl
  | cons o os ih =>
    cases o with
    | use c => rw [List.filterMap_cons_none (by rfl), ih]; simp
    | reserve n => rw [List.filterMap_cons_none (by rfl), ih]; simp
    | set name level =>
      by_cases hp : name.getLast? = some 42
      · rw [List.filterMap_cons_some (b := (name.dropLast, level % 256)) (by
          simp only [patOf, if_pos hp]), List.length_cons, ih, List.countP_cons_of_pos (by simp [hp])]
      · rw [List.filterMap_cons_none (by simp only [patOf, if_neg hp]), ih,
          List.countP_cons_of_neg (by simp [hp])]

theorem locked_ok {ops : List Op} {s : Data} (h : run ops = .ok s) (c : Str) :
    (∃ r, lockedCategoryToId s c = .ok r ∧ r.1 < r.2.levels.length) ∨
    (lockedCategoryToId s c = .abort ∧ c ∉ categories ops ∧ s.cap ≤ (categories ops).length) := by
  have hlt : ∀ e ∈ s.ids, e.2 < s.levels.length := by
    intro e he
    have : e.2 ∈ s.ids.map Prod.snd := List.mem_map_of_mem he
    rw [(inv_run h).idsRange] at this
    exact List.mem_range.1 this
  unfold lockedCategoryToId
  cases hf : s.ids.find? (fun e => e.1 == c) with
  | some e => left; exact ⟨_, rfl, hlt e (find_eq hf).2⟩
  | none =>
    by_cases hcap : s.levels.length < s.cap
    · left
      simp only [decide_eq_true hcap, Res.require_true, Res.bind_ok]
      exact ⟨_, rfl, by simp⟩
    · right
      simp only [decide_eq_false hcap, Res.require_false, Res.bind_abort]
      refine ⟨trivial, ?_, by rw [← (log_id_order ops s h).2]; omega⟩
      rw [← run_names h]
      intro hm
      obtain ⟨e, he1, he2⟩ := List.mem_map.1 hm
      rw [List.find?_eq_none] at hf
      exact hf e he1 (by simp [he2])

/-- One call, in terms of the calls before it: never undefined, and an abort only when a
capacity is exhausted. -/
theorem step_defined {ops : List Op} {s : Data} (h : run ops = .ok s) (o : Op) :
    step s o ≠ .ub ∧ (step s o = .abort →
      (∃ c, named o = some c ∧ c ∉ categories ops ∧ s.cap ≤ (categories ops).length) ∨
      (patOf o ≠ none ∧ s.pcap ≤ patterns ops) ∨
      (∃ n, o = .reserve n ∧ n < (categories ops).length)) := by
  cases o with
  | use c =>
    show (categoryToId s c).map Prod.snd ≠ _ ∧ ((categoryToId s c).map Prod.snd = _ → _)
    unfold categoryToId
    rcases locked_ok h c with ⟨r, hr, _⟩ | ⟨hr, h1, h2⟩
    · rw [hr]; simp
    · rw [hr]
      exact ⟨by simp, fun _ => .inl ⟨c, rfl, h1, h2⟩⟩
  | reserve n =>
    show reserveCategories s n ≠ _ ∧ (reserveCategories s n = _ → _)
    unfold reserveCategories
    by_cases hn : n ≥ s.levels.length
    · rw [decide_eq_true hn]; simp
    · rw [decide_eq_false hn]
      exact ⟨by simp, fun _ => .inr (.inr ⟨n, rfl, by
        rw [← (log_id_order ops s h).2]; omega⟩)⟩
  | set name level =>
    show setDebugLevel s name level ≠ _ ∧ (setDebugLevel s name level = _ → _)
    unfold setDebugLevel
    simp only []
    by_cases hp : name.getLast? = some 42
    · rw [if_pos hp]
      by_cases hc : s.pats.length < s.pcap
      · have hlt : ∀ e ∈ s.ids, e.2 < s.levels.length := by
          intro e he
          have : e.2 ∈ s.ids.map Prod.snd := List.mem_map_of_mem he
          rw [(inv_run h).idsRange] at this
          exact List.mem_range.1 this
        obtain ⟨l', e1, _⟩ := updateAll_spec name.dropLast (u8 level) s.ids s.levels hlt
        rw [decide_eq_true hc, e1]; simp
      · rw [decide_eq_false hc]
        refine ⟨by simp, fun _ => .inr (.inl ⟨?_, ?_⟩)⟩
        · simp only [patOf, if_pos hp]; simp
        · rw [← run_patterns ops s h]; omega
    · rw [if_neg hp]
      rcases locked_ok h name with ⟨r, hr, hlt⟩ | ⟨hr, h1, h2⟩
      · rw [hr]
        simp only [Res.bind_ok, setAt, decide_eq_true hlt, Res.require_true, if_pos hlt]
        simp
      · rw [hr]
        exact ⟨by simp, fun _ => .inl ⟨name, by simp only [named, if_neg hp], h1, h2⟩⟩

theorem runFrom_caps : ∀ (ops : List Op) (s s' : Data), runFrom s ops = .ok s' →
    s'.pcap = s.pcap ∧ s.cap ≤ s'.cap ∧ ((∀ n, Op.reserve n ∉ ops) → s'.cap = s.cap) := by
  have one : ∀ (o : Op) (s s' : Data), step s o = .ok s' →
      s'.pcap = s.pcap ∧ s.cap ≤ s'.cap ∧ ((∀ n, o ≠ .reserve n) → s'.cap = s.cap) := by
    intro o s s' h
    have locked : ∀ {c : Str} {r : Nat × Data}, lockedCategoryToId s c = .ok r →
        r.2.pcap = s.pcap ∧ r.2.cap = s.cap := by
      intro c r hl
      unfold lockedCategoryToId at hl
      split at hl
      · cases hl; exact ⟨rfl, rfl⟩
      · rw [Res.bind_eq_ok] at hl
        obtain ⟨_, _, hl⟩ := hl
        cases hl; exact ⟨rfl, rfl⟩
    cases o with
    | use c =>
      obtain ⟨id, h⟩ := step_use h
      unfold categoryToId at h
      rw [Res.bind_eq_ok] at h
      obtain ⟨r, hl, h⟩ := h
      cases h
      obtain ⟨_, _, _, w4, w5⟩ := limitWarning_ids r.2 r.1
      obtain ⟨l1, l2⟩ := locked hl
      exact ⟨by rw [w5, l1], by rw [w4, l2]; exact Nat.le_refl _, fun _ => by rw [w4, l2]⟩
    | set name level =>
      change setDebugLevel s name level = _ at h
      unfold setDebugLevel at h
      simp only [] at h
      split at h
      · rw [Res.bind_eq_ok] at h
        obtain ⟨_, _, h⟩ := h
        rw [Res.bind_eq_ok] at h
        obtain ⟨_, _, h⟩ := h
        cases h
        exact ⟨rfl, Nat.le_refl _, fun _ => rfl⟩
      · rw [Res.bind_eq_ok] at h
        obtain ⟨r, hl, h⟩ := h
        rw [Res.bind_eq_ok] at h
        obtain ⟨_, _, h⟩ := h
        rw [Res.bind_eq_ok] at h
        obtain ⟨l, _, h⟩ := h
        cases h
        obtain ⟨_, _, _, w4, w5⟩ := limitWarning_ids { r.2 with levels := l } r.1
        obtain ⟨l1, l2⟩ := locked hl
        exact ⟨by rw [w5]; exact l1, by rw [w4]; exact Nat.le_of_eq l2.symm,
          fun _ => by rw [w4]; exact l2⟩
    | reserve n =>
      change reserveCategories s n = _ at h
      unfold reserveCategories at h
      rw [Res.bind_eq_ok] at h
      obtain ⟨_, _, h⟩ := h
      cases h
      exact ⟨rfl, Nat.le_max_left _ _, fun hh => absurd rfl (hh n)⟩
  intro ops
  induction ops with
  | nil => intro s s' h; cases h; exact ⟨rfl, Nat.le_refl _, fun _ => rfl⟩
  | cons o os ih =>
    intro s s' h
    rw [runFrom, Res.bind_eq_ok] at h
    obtain ⟨s1, h1, h2⟩ := h
    obtain ⟨a1, a2, a3⟩ := one o s s1 h1
    obtain ⟨b1, b2, b3⟩ := ih s1 s' h2
    refine ⟨by rw [b1, a1], by omega, fun hn => ?_⟩
    rw [b3 (fun n hm => hn n (List.mem_cons_of_mem _ hm)),
      a3 (fun n hh => hn n (by rw [hh]; exact List.mem_cons_self))]

theorem eraseDups_prefix_le (a b : List Str) : a.eraseDups.length ≤ (a ++ b).eraseDups.length := by
  rw [List.eraseDups_append, List.length_append]; omega

/-- C51: the calls succeed for every program that mentions at most 4000 categories, sets at
most 100 patterns and reserves no less than it already uses; nothing is ever undefined. -/
theorem log_defined (ops : List Op) :
    run ops ≠ .ub ∧
    ((categories ops).length ≤ 4000 → patterns ops ≤ 100 →
      (∀ a n b, ops = a ++ .reserve n :: b → (categories a).length ≤ n) →
      ∃ s, run ops = .ok s) := by
  have key : ∀ (n : Nat) (ops : List Op), ops.length = n → run ops ≠ .ub ∧
    ((categories ops).length ≤ 4000 → patterns ops ≤ 100 →
      (∀ a n b, ops = a ++ .reserve n :: b → (categories a).length ≤ n) →
      ∃ s, run ops = .ok s) := by
    intro n
    induction n with
    | zero =>
      intro ops hn
      have : ops = [] := List.length_eq_zero_iff.1 hn
      subst this
      exact ⟨by simp [run, runFrom], fun _ _ _ => ⟨init, rfl⟩⟩
    | succ n ih =>
      intro ops hn
      have hne : ops ≠ [] := by intro hh; rw [hh] at hn; simp at hn
      obtain ⟨t, o, rfl⟩ : ∃ t o, ops = t ++ [o] :=
        ⟨ops.dropLast, ops.getLast hne, (List.dropLast_concat_getLast hne).symm⟩
      obtain ⟨ih1, ih2⟩ := ih t (by simpa using hn)
      rw [run_snoc]
      constructor
      · cases hr : run t with
        | ok s => exact (step_defined hr o).1
        | abort => simp
        | ub => exact absurd hr ih1
      · intro hc hp hres
        have hle : (categories t).length ≤ (categories (t ++ [o])).length := by
          unfold categories
          rw [List.filterMap_append]
          exact eraseDups_prefix_le _ _
        have hple : patterns t ≤ patterns (t ++ [o]) := by
          unfold patterns; rw [List.countP_append]; omega
        obtain ⟨s, hs⟩ := ih2 (by omega) (by omega) (fun a n b hab =>
          hres a n (b ++ [o]) (by rw [hab]; simp))
        obtain ⟨c1, c2, _⟩ := runFrom_caps t init s hs
        have c1' : s.pcap = 100 := c1
        have c2' : 4000 ≤ s.cap := c2
        rw [hs]
        simp only [Res.bind_ok]
        obtain ⟨d1, d2⟩ := step_defined hs o
        cases hst : step s o with
        | ok s' => exact ⟨s', rfl⟩
        | ub => exact absurd hst d1
        | abort =>
          exfalso
          rcases d2 hst with ⟨c, h1, h2, h3⟩ | ⟨h1, h2⟩ | ⟨n, h1, h2⟩
          · have : (categories (t ++ [o])).length = (categories t).length + 1 := by
              unfold categories at h2 ⊢
              rw [List.mem_eraseDups] at h2
              rw [List.filterMap_append, List.filterMap_cons_some h1, List.filterMap_nil,
                List.eraseDups_append, removeAll_one, if_neg h2, List.length_append]
              rfl
            omega
          · have : patterns (t ++ [o]) = patterns t + 1 := by
              unfold patterns
              rw [List.countP_append]
              congr 1
              cases o with
              | use c => exact absurd rfl h1
              | reserve c => exact absurd rfl h1
              | set name level =>
                by_cases hp : name.getLast? = some 42
                · rw [List.countP_cons_of_pos (by simp [hp])]; rfl
                · exact absurd (by simp only [patOf, if_neg hp]) h1
            omega
          · have := hres t n [] (by rw [h1])
            omega
  exact key _ ops rfl

/-! ## The warning -/

/-- Without `reserveCategories`, the warning is given exactly when more than 3200 of the 4000
categories are in use, i.e. at 4/5 and not at the documented 3/4. -/
theorem log_warning (ops : List Op) (s : Data) (h : run ops = .ok s)
    (hno : ∀ n, Op.reserve n ∉ ops) : s.warned = decide (3200 < (categories ops).length) := by
  have key : ∀ (n : Nat) (ops : List Op), ops.length = n → (∀ n, Op.reserve n ∉ ops) → ∀ s,
      run ops = .ok s → s.warned = decide (3200 < s.levels.length) := by
    intro n
    induction n with
    | zero =>
      intro ops hn _ s h
      have : ops = [] := List.length_eq_zero_iff.1 hn
      subst this
      cases h; rfl
    | succ n ih =>
      intro ops hn hno s h
      have hne : ops ≠ [] := by intro hh; rw [hh] at hn; simp at hn
      obtain ⟨t, o, rfl⟩ : ∃ t o, ops = t ++ [o] :=
        ⟨ops.dropLast, ops.getLast hne, (List.dropLast_concat_getLast hne).symm⟩
      rw [run_snoc, Res.bind_eq_ok] at h
      obtain ⟨s1, h1, h⟩ := h
      have hnot : ∀ n, Op.reserve n ∉ t := fun n hm => hno n (List.mem_append_left _ hm)
      have ih1 := ih t (by simpa using hn) hnot s1 h1
      have hcap : s1.cap = 4000 := (runFrom_caps t init s1 h1).2.2 hnot
      have hcapOk := (inv_run h1).capOk
      have hlt : ∀ e ∈ s1.ids, e.2 < s1.levels.length := by
        intro e he
        have : e.2 ∈ s1.ids.map Prod.snd := List.mem_map_of_mem he
        rw [(inv_run h1).idsRange] at this
        exact List.mem_range.1 this
      -- the effect of a mention
      have locked : ∀ (c : Str) (r : Nat × Data), lockedCategoryToId s1 c = .ok r →
          ∀ r2 : Data, r2.warned = r.2.warned → r2.cap = r.2.cap →
          r2.levels.length = r.2.levels.length →
          (limitWarning r2 r.1).warned = decide (3200 < r2.levels.length) := by
        intro c r hl r2 e1 e2 e3
        have hmod : ∀ k, k ≤ 4000 → (k * 5) % 2 ^ 32 = k * 5 := fun k hk =>
          Nat.mod_eq_of_lt (by omega)
        unfold lockedCategoryToId at hl
        split at hl
        · next e he =>
          cases hl
          simp only at e1 e2 e3 ⊢
          have := hlt e (find_eq he).2
          unfold limitWarning
          rw [e2, hcap, hmod _ (by omega)]
          split
          · next hge => rw [e3]; symm; apply decide_eq_true; omega
          · rw [e1, e3]; exact ih1
        · rw [Res.bind_eq_ok] at hl
          obtain ⟨_, hreq, hl⟩ := hl
          have hlen : s1.levels.length < s1.cap := by
            unfold Res.require at hreq
            split at hreq
            · next h => simpa using h
            · cases hreq
          cases hl
          simp only [List.length_append, List.length_cons, List.length_nil] at e1 e2 e3 ⊢
          unfold limitWarning
          rw [e2, hcap, hmod _ (by omega)]
          split
          · next hge => rw [e3]; symm; apply decide_eq_true; omega
          · next hge =>
            rw [e1, e3, ih1]
            congr 1
            apply propext
            omega
      cases o with
      | use c =>
        obtain ⟨id, h⟩ := step_use h
        unfold categoryToId at h
        rw [Res.bind_eq_ok] at h
        obtain ⟨r, hl, h⟩ := h
        cases h
        rw [locked c r hl r.2 rfl rfl rfl, (limitWarning_ids _ _).2.1]
      | set name level =>
        change setDebugLevel s1 name level = _ at h
        unfold setDebugLevel at h
        simp only [] at h
        split at h
        · rw [Res.bind_eq_ok] at h
          obtain ⟨_, _, h⟩ := h
          rw [Res.bind_eq_ok] at h
          obtain ⟨l, hl, h⟩ := h
          cases h
          obtain ⟨l', e1, e2, _⟩ := updateAll_spec name.dropLast (u8 level) s1.ids s1.levels hlt
          rw [e1] at hl
          cases hl
          show s1.warned = decide (3200 < l.length)
          rw [e2]; exact ih1
        · rw [Res.bind_eq_ok] at h
          obtain ⟨r, hl, h⟩ := h
          rw [Res.bind_eq_ok] at h
          obtain ⟨_, _, h⟩ := h
          rw [Res.bind_eq_ok] at h
          obtain ⟨l, hset, h⟩ := h
          cases h
          have hlen : l.length = r.2.levels.length := by
            unfold setAt at hset
            split at hset
            · cases hset; simp
            · cases hset
          rw [locked name r hl { r.2 with levels := l } rfl rfl hlen, (limitWarning_ids _ _).2.1]
      | reserve n => exact absurd (List.mem_append_right _ (by simp)) (hno n)
  rw [key _ ops rfl hno s h, (log_id_order ops s h).2]

/-! ## C97: the debug string -/

/-- A comma separated entry: a name, and optionally the digits of a level. -/
structure Entry where
  name : Str
  level : Option Str

def Entry.text (e : Entry) : Str :=
  match e.level with
  | none => e.name
  | some d => e.name ++ 61 :: d

/-- The setting an entry stands for. -/
def Entry.Means (e : Entry) (o : Op) : Prop :=
  match e.level with
  | none => o = .set e.name 1
  | some d => ∃ n, Num.Spec.Spells 10 d n ∧ n < 2 ^ 32 ∧ o = .set e.name n

theorem spells_no (c : Byte) (hc : Num.digit 10 c = none) {d : Str} {n : Nat}
    (h : Num.Spec.Spells 10 d n) : c ∉ d := by
  intro hm
  have := ((Num.spells_iff (by omega) d n).1 h).2.1
  rw [List.all_eq_true] at this
  have := this c hm
  rw [hc] at this; cases this

theorem parsePart_spec (s : Data) (e : Entry) (o : Op) (hm : e.Means o)
    (h1 : (61 : Byte) ∉ e.name) (hlen : e.text.length < 2147483648) :
    parsePart s e.text = step s o := by
  obtain ⟨name, level⟩ := e
  cases level with
  | none =>
    unfold Entry.Means at hm
    simp only at hm h1
    subst hm
    show parsePart s name = setDebugLevel s name 1
    have := join_split_byte [name] 61 (by simp) (by simpa using h1) (by rw [join_one]; exact hlen)
    rw [join_one] at this
    unfold parsePart
    rw [this]
    rfl
  | some d =>
    unfold Entry.Means at hm
    simp only at hm h1
    obtain ⟨n, hs, hn, rfl⟩ := hm
    have hd : (61 : Byte) ∉ d := spells_no 61 (by decide) hs
    have ej : join [61] [name, d] = name ++ 61 :: d := by
      rw [join_cons_cons, join_one]; simp
    show parsePart s (name ++ 61 :: d) = setDebugLevel s name n
    have := join_split_byte [name, d] 61 (by simp) (by
      intro p hp
      simp only [List.mem_cons, List.not_mem_nil, or_false] at hp
      rcases hp with rfl | rfl
      · exact h1
      · exact hd) (by rw [ej]; exact hlen)
    rw [ej] at this
    unfold parsePart
    rw [this]
    have hv : Num.stringToInteger Num.uint32 d = .ok n := by
      unfold Num.stringToInteger
      rw [if_pos rfl, Num.lexicalCast_iff _ (by decide)]
      refine ⟨n, .inl ⟨hs, ?_⟩⟩
      unfold Num.toTy Num.uint32
      simp only [Bool.false_eq_true, if_false]
      rw [if_pos hn]
    simp only [Res.bind_ok, hv]
    rfl

/-- C97: a debug string made of entries `name` and `name=digits`, joined by commas, makes
exactly the settings it spells, in order (a bare name means level 1). -/
theorem parse_settings (s : Data) (ps : List (Entry × Op)) (hne : ps ≠ [])
    (hm : ∀ p ∈ ps, p.1.Means p.2)
    (hn : ∀ p ∈ ps, (61 : Byte) ∉ p.1.name ∧ (44 : Byte) ∉ p.1.name)
    (hlen : (join [44] (ps.map (fun p => p.1.text))).length < 2147483648) :
    parseDebugString s (join [44] (ps.map (fun p => p.1.text))) = runFrom s (ps.map Prod.snd) := by
  have h44 : ∀ t ∈ ps.map (fun p => p.1.text), (44 : Byte) ∉ t := by
    intro t ht
    obtain ⟨p, hp, rfl⟩ := List.mem_map.1 ht
    have ho := hm p hp
    show (44 : Byte) ∉ p.1.text
    unfold Entry.text
    unfold Entry.Means at ho
    cases hl : p.1.level with
    | none => exact (hn p hp).2
    | some d =>
      rw [hl] at ho
      obtain ⟨n, hs, _⟩ := ho
      simp only [List.mem_append, List.mem_cons, not_or]
      exact ⟨(hn p hp).2, by decide, spells_no 44 (by decide) hs⟩
  unfold parseDebugString
  rw [join_split_byte _ 44 (by simpa using hne) h44 hlen]
  simp only [Res.bind_ok]
  have hle : ∀ p ∈ ps, p.1.text.length < 2147483648 := by
    intro p hp
    refine Nat.lt_of_le_of_lt ?_ hlen
    clear hlen h44 hm hne hn
    induction ps with
    | nil => cases hp
    | cons x xs ih =>
      rw [List.map_cons]
      cases xs with
      | nil =>
        rw [List.map_nil, join_one]
        rcases List.mem_cons.1 hp with rfl | hp
        · omega
        · cases hp
      | cons y ys =>
        rw [List.map_cons, join_cons_cons, List.length_append, List.length_append]
        rcases List.mem_cons.1 hp with rfl | hp
        · omega
        · have := ih hp
          rw [List.map_cons] at this
          omega
  clear hlen h44 hne
  induction ps generalizing s with
  | nil => rfl
  | cons p ps ih =>
    rw [List.map_cons, List.map_cons, parseParts, runFrom,
      parsePart_spec s _ _ (hm p List.mem_cons_self) (hn _ List.mem_cons_self).1
        (hle _ List.mem_cons_self)]
    congr 1
    funext s'
    exact ih s' (fun e he => hm e (List.mem_cons_of_mem _ he))
      (fun e he => hn e (List.mem_cons_of_mem _ he))
      (fun e he => hle e (List.mem_cons_of_mem _ he))

/-- "test-*,b=3" makes two settings. -/
example : parseDebugString init [116, 101, 115, 116, 45, 42, 44, 98, 61, 51] =
    run [.set [116, 101, 115, 116, 45, 42] 1, .set [98] 3] := by decide +kernel

/-- Entries meeting the hypotheses of `parse_settings`. -/
example : Entry.Means ⟨[98], some [51]⟩ (.set [98] 3) ∧ (61 : Byte) ∉ ([98] : Str) :=
  ⟨⟨3, .one (.dec 3 51 (by decide) (by decide)) (by decide), by decide, rfl⟩, by decide⟩

/-- C97, a level above 255 is not refused but cut: "b=256" switches `b` off. -/
theorem parse_truncate_false :
    (parseDebugString init [98, 61, 50, 53, 54] >>= fun s => (wouldDebug s [98] 1).map Prod.fst) =
      .ok false := by decide +kernel

/-- The empty string is not "no settings": it sets the category with the empty name. -/
theorem parse_empty_false : parseDebugString init [] = run [.set [] 1] := by decide +kernel

end Verif.Log
