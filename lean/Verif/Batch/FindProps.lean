import Verif.Batch.Find

/-! # batch-parallel: the files to work on (C254) -/

namespace Verif.Batch.Find

open Verif.Deptool.Deps (Text)

/-! ## Specification -/

/-- A proper step of a path. -/
def Step (c : Text) : Prop := c ≠ [] ∧ c ≠ ['.'] ∧ '/' ∉ c

/-- The name `t` leads along the steps `cs`: one step, nothing, or one after the other with a slash between. -/
inductive Leads : Text → List Text → Prop where
  | none : Leads [] []
  | dot : Leads ['.'] []
  | one (c : Text) : Step c → Leads c [c]
  | both (a b : Text) (x y : List Text) : Leads a x → Leads b y → Leads (a ++ '/' :: b) (x ++ y)

/-- What the name `t` means in the working directory `cwd`. -/
def Means (cwd : List Text) (t : Text) (cs : List Text) : Prop :=
  (∃ r, t = '/' :: r ∧ Leads r cs) ∨ ((¬ ∃ r, t = '/' :: r) ∧ ∃ x, Leads t x ∧ cs = cwd ++ x)

/-- The entry is to be built: a source below one of the directories, whose result is missing or out of date. -/
def Wanted (w : World) (dirs : List Text) (e : Text × Text × Text) : Prop :=
  e.1 ∈ dirs ∧ e.2.1 ∈ w.walk e.1 ∧ w.source e.1 e.2.1 = true ∧ e.2.2 = w.dest e.1 e.2.1 ∧
    (w.isFile e.2.2 = false ∨ w.outOfDate e.1 e.2.1 e.2.2 = true)

/-- The order of texts: `a` is a beginning of `b`, or smaller in the first character where they differ. -/
def Before (a b : Text) : Prop := a <+: b ∨ ∃ p x y s t, a = p ++ x :: s ∧ b = p ++ y :: t ∧ x.toNat < y.toNat

/-! ## Lemmas -/

theorem parts_ne (t : Text) : parts t ≠ [] := by
  cases t with
  | nil => simp [parts]
  | cons c t =>
    unfold parts
    split
    · simp
    · split <;> simp

theorem parts_slash (a b : Text) : parts (a ++ '/' :: b) = parts a ++ parts b := by
  induction a with
  | nil => simp [parts]
  | cons c a ih =>
    rw [List.cons_append]
    by_cases h : c = '/'
    · rw [parts, if_pos h, ih, parts, if_pos h, List.cons_append]
    · rw [parts, if_neg h, ih, parts, if_neg h]
      cases hp : parts a with
      | nil => exact absurd hp (parts_ne a)
      | cons x r => rfl

theorem parts_plain (t : Text) (h : '/' ∉ t) : parts t = [t] := by
  induction t with
  | nil => rfl
  | cons c t ih =>
    simp only [List.mem_cons, not_or] at h
    rw [parts, if_neg (fun e => h.1 e.symm), ih h.2]

theorem steps_slash (a b : Text) : steps (a ++ '/' :: b) = steps a ++ steps b := by
  unfold steps
  rw [parts_slash, List.filter_append]

theorem steps_step (c : Text) (h : Step c) : steps c = [c] := by
  unfold steps
  rw [parts_plain c h.2.2]
  simp [h.1, h.2.1]

/-- The steps are those the name leads along. -/
theorem leads_steps {t : Text} {cs : List Text} (h : Leads t cs) : steps t = cs := by
  induction h with
  | none => rfl
  | dot => rfl
  | one c h => exact steps_step c h
  | both a b x y _ _ ha hb => rw [steps_slash, ha, hb]

theorem steps_leads (t : Text) : Leads t (steps t) := by
  induction hn : t.length using Nat.strongRecOn generalizing t with
  | ind n ih =>
    by_cases h : '/' ∈ t
    · obtain ⟨a, b, rfl⟩ := List.append_of_mem h
      rw [steps_slash]
      simp only [List.length_append, List.length_cons] at hn
      exact Leads.both a b _ _ (ih a.length (by omega) a rfl) (ih b.length (by omega) b rfl)
    · by_cases h1 : t = []
      · subst h1; exact Leads.none
      · by_cases h2 : t = ['.']
        · subst h2; exact Leads.dot
        · rw [steps_step t ⟨h1, h2, h⟩]
          exact Leads.one t ⟨h1, h2, h⟩

theorem means_place (cwd : List Text) (t : Text) (cs : List Text) : Means cwd t cs ↔ place cwd t = cs := by
  have hslash : ∀ r : Text, steps ('/' :: r) = steps r := by
    intro r
    have := steps_slash [] r
    simpa [show steps [] = [] from rfl] using this
  unfold Means place
  constructor
  · rintro (⟨r, rfl, h⟩ | ⟨hn, x, h, rfl⟩)
    · rw [if_pos List.head?_cons, hslash, leads_steps h]
    · rw [if_neg, leads_steps h]
      intro hh
      cases t with
      | nil => cases hh
      | cons c r =>
        simp only [List.head?_cons, Option.some.injEq] at hh
        exact hn ⟨r, by rw [hh]⟩
  · rintro rfl
    cases t with
    | nil => exact Or.inr ⟨fun ⟨r, h⟩ => (by cases h), [], Leads.none, by simp [show steps [] = [] from rfl]⟩
    | cons c r =>
      by_cases hc : c = '/'
      · subst hc
        refine Or.inl ⟨r, rfl, ?_⟩
        rw [if_pos List.head?_cons, hslash]
        exact steps_leads r
      · refine Or.inr ⟨fun ⟨r', h⟩ => hc (by cases h; rfl), steps (c :: r), steps_leads _, ?_⟩
        rw [if_neg (by simpa using hc)]

theorem steps_all (t : Text) : ∀ c ∈ steps t, Step c := by
  have key : ∀ t cs, Leads t cs → ∀ c ∈ cs, Step c := by
    intro t cs h
    induction h with
    | none => simp
    | dot => simp
    | one c h => intro x hx; simp only [List.mem_singleton] at hx; subst hx; exact h
    | both a b x y _ _ ha hb =>
      intro c hc
      rcases List.mem_append.mp hc with h | h
      · exact ha c h
      · exact hb c h
  exact key t _ (steps_leads t)

theorem steps_render (cs : List Text) (h : ∀ c ∈ cs, Step c) (t : Text) : steps ((cs.map fun c => '/' :: c).flatten ++ '/' :: t) = cs ++ steps t := by
  induction cs with
  | nil =>
    have := steps_slash [] t
    simpa [show steps [] = [] from rfl] using this
  | cons c cs ih =>
    simp only [List.map_cons, List.flatten_cons, List.cons_append, List.append_assoc]
    have h0 := steps_slash [] (c ++ ((cs.map fun c => '/' :: c).flatten ++ '/' :: t))
    rw [List.nil_append, show steps [] = [] from rfl, List.nil_append] at h0
    rw [h0]
    have ih := ih fun x hx => h x (by simp [hx])
    cases cs with
    | nil =>
      simp only [List.map_nil, List.flatten_nil, List.nil_append] at ih ⊢
      rw [steps_slash, steps_step c (h c (by simp))]
      rfl
    | cons d ds =>
      simp only [List.map_cons, List.flatten_cons, List.cons_append] at ih ⊢
      have h1 := steps_slash [] (d ++ (ds.map fun c => '/' :: c).flatten ++ '/' :: t)
      rw [List.nil_append, show steps [] = [] from rfl, List.nil_append] at h1
      rw [h1] at ih
      rw [steps_slash, steps_step c (h c (by simp)), ih]
      rfl

theorem place_steps (cwd : List Text) (hc : ∀ c ∈ cwd, Step c) (t : Text) : ∀ c ∈ place cwd t, Step c := by
  unfold place
  split
  · exact steps_all t
  · intro c h
    rcases List.mem_append.mp h with h | h
    · exact hc c h
    · exact steps_all t c h

theorem absPath_slash (cwd : List Text) (hc : ∀ c ∈ cwd, Step c) (t n : Text) :
    steps (absPath cwd t ++ '/' :: n) = place cwd t ++ steps n ∧ ∃ r, absPath cwd t = '/' :: r := by
  have hs := place_steps cwd hc t
  unfold absPath
  cases hp : place cwd t with
  | nil =>
    refine ⟨?_, [], rfl⟩
    have h1 := steps_slash ['/'] n
    rw [h1]
    rfl
  | cons c cs =>
    rw [hp] at hs
    exact ⟨steps_render (c :: cs) hs n, _, rfl⟩

theorem absPath_place (cwd : List Text) (hc : ∀ c ∈ cwd, Step c) (t : Text) : place cwd (absPath cwd t) = place cwd t := by
  obtain ⟨h1, r, h2⟩ := absPath_slash cwd hc t []
  rw [steps_slash] at h1
  simp only [show steps [] = [] from rfl, List.append_nil] at h1
  rw [show place cwd (absPath cwd t) = steps (absPath cwd t) from by unfold place; rw [h2]; rfl, h1]

theorem take_noslash (t : Text) : '/' ∉ t.takeWhile (· ≠ '/') := by
  intro h
  have := List.all_takeWhile (p := fun c : Char => decide (c ≠ '/')) (l := t)
  rw [List.all_eq_true] at this
  simpa using this _ h

theorem drop_slash (t : Text) (c : Char) (r : Text) (h : t.dropWhile (· ≠ '/') = c :: r) : c = '/' := by
  induction t with
  | nil => cases h
  | cons d t ih =>
    rw [List.dropWhile_cons] at h
    split at h
    · exact ih h
    · rename_i hd
      cases h
      simpa using hd

theorem span_at (a b : Text) (ha : '/' ∉ a) : (a ++ '/' :: b).takeWhile (· ≠ '/') = a ∧ (a ++ '/' :: b).dropWhile (· ≠ '/') = '/' :: b := by
  induction a with
  | nil => simp
  | cons c a ih =>
    simp only [List.mem_cons, not_or] at ha
    have hc : c ≠ '/' := fun e => ha.1 e.symm
    obtain ⟨h1, h2⟩ := ih ha.2
    rw [List.cons_append, List.takeWhile_cons, List.dropWhile_cons]
    simp only [ne_eq, hc, not_false_eq_true, decide_true, if_true]
    exact ⟨congrArg (c :: ·) h1, h2⟩

/-- The pattern: a name behind the last slash, something before it. -/
theorem cutLast_iff (t p n : Text) : cutLast t = some (p, n) ↔ t = p ++ '/' :: n ∧ p ≠ [] ∧ n ≠ [] ∧ '/' ∉ n := by
  unfold cutLast
  constructor
  · intro h
    split at h
    · rename_i c q hq
      split at h
      · cases h
      · rename_i hne
        rw [not_or] at hne
        cases h
        have hc := drop_slash _ _ _ hq
        have hs := List.takeWhile_append_dropWhile (p := fun c : Char => decide (c ≠ '/')) (l := t.reverse)
        rw [hq, hc] at hs
        have := congrArg List.reverse hs
        rw [List.reverse_reverse, List.reverse_append, List.reverse_cons, List.append_assoc] at this
        refine ⟨this.symm, by simpa using hne.1, fun e => hne.2 (by simpa using e), fun hm => take_noslash t.reverse (by simpa using hm)⟩
    · cases h
  · rintro ⟨rfl, hp, hn, hs⟩
    have hr : (p ++ '/' :: n).reverse = n.reverse ++ '/' :: p.reverse := by simp
    obtain ⟨h1, h2⟩ := span_at n.reverse p.reverse (by simpa using hs)
    rw [hr, h2, h1]
    simp [hp, hn]

theorem leText_iff (a b : Text) : leText a b = true ↔ Before a b := by
  induction a generalizing b with
  | nil => simp [leText, Before]
  | cons x s ih =>
    cases b with
    | nil =>
      simp only [leText, Before]
      constructor
      · intro h; cases h
      · rintro (h | ⟨p, u, v, q, r, -, h2, -⟩)
        · simp at h
        · exact absurd h2 (by simp)
    | cons y t =>
      simp only [leText, Bool.or_eq_true, decide_eq_true_eq, Bool.and_eq_true, beq_iff_eq, ih t]
      constructor
      · rintro (h | ⟨rfl, h | ⟨p, u, v, q, r, rfl, rfl, h3⟩⟩)
        · exact Or.inr ⟨[], x, y, s, t, rfl, rfl, h⟩
        · exact Or.inl (by simpa using h)
        · exact Or.inr ⟨x :: p, u, v, q, r, rfl, rfl, h3⟩
      · rintro (h | ⟨p, u, v, q, r, h1, h2, h3⟩)
        · rw [List.cons_prefix_cons] at h
          exact Or.inr ⟨h.1, Or.inl h.2⟩
        · cases p with
          | nil => cases h1; cases h2; exact Or.inl h3
          | cons z p => cases h1; cases h2; exact Or.inr ⟨rfl, Or.inr ⟨p, u, v, q, r, rfl, rfl, h3⟩⟩

theorem leText_total (a b : Text) : (leText a b || leText b a) = true := by
  induction a generalizing b with
  | nil => simp [leText]
  | cons x s ih =>
    cases b with
    | nil => simp [leText]
    | cons y t =>
      have := ih t
      simp only [leText, Bool.or_eq_true, decide_eq_true_eq, Bool.and_eq_true, beq_iff_eq] at this ⊢
      rcases Nat.lt_trichotomy x.toNat y.toNat with h | h | h
      · exact Or.inl (Or.inl h)
      · have hxy : x = y := Char.ext (UInt32.toNat_inj.mp h)
        rcases this with h' | h'
        · exact Or.inl (Or.inr ⟨hxy, h'⟩)
        · exact Or.inr (Or.inr ⟨hxy.symm, h'⟩)
      · exact Or.inr (Or.inl h)

theorem leText_trans (a b c : Text) (h1 : leText a b = true) (h2 : leText b c = true) : leText a c = true := by
  induction a generalizing b c with
  | nil => simp [leText]
  | cons x s ih =>
    cases b with
    | nil => cases h1
    | cons y t =>
      cases c with
      | nil => cases h2
      | cons z u =>
        simp only [leText, Bool.or_eq_true, decide_eq_true_eq, Bool.and_eq_true, beq_iff_eq] at h1 h2 ⊢
        rcases h1 with h1 | ⟨rfl, h1⟩
        · rcases h2 with h2 | ⟨rfl, h2⟩
          · exact Or.inl (by omega)
          · exact Or.inl h1
        · rcases h2 with h2 | ⟨rfl, h2⟩
          · exact Or.inl h2
          · exact Or.inr ⟨rfl, ih t u h1 h2⟩

theorem things_mem (w : World) (ps : List (Text × Text)) (e : Text × Text × Text) :
    e ∈ things w ps ↔ (e.1, e.2.1) ∈ ps ∧ e.2.2 = w.dest e.1 e.2.1 ∧ (w.isFile e.2.2 = false ∨ w.outOfDate e.1 e.2.1 e.2.2 = true) := by
  obtain ⟨p, f, d⟩ := e
  induction ps with
  | nil => simp [things]
  | cons x ps ih =>
    obtain ⟨q, g⟩ := x
    rw [things]
    simp only [] at ih ⊢
    split
    · rename_i h
      rw [List.mem_cons, ih, List.mem_cons]
      constructor
      · rintro (h' | ⟨h1, h2⟩)
        · cases h'
          exact ⟨Or.inl rfl, rfl, by simpa using h⟩
        · exact ⟨Or.inr h1, h2⟩
      · rintro ⟨h1 | h1, h2, h3⟩
        · cases h1
          exact Or.inl (by rw [h2])
        · exact Or.inr ⟨h1, h2, h3⟩
    · rename_i h
      rw [ih, List.mem_cons]
      constructor
      · rintro ⟨h1, h2⟩; exact ⟨Or.inr h1, h2⟩
      · rintro ⟨h1 | h1, h2, h3⟩
        · cases h1
          subst h2
          exact absurd (by simpa using h3) h
        · exact ⟨h1, h2, h3⟩

theorem things_sub (w : World) (ps : List (Text × Text)) : ((things w ps).map fun e => e.2.1).Sublist (ps.map (·.2)) := by
  induction ps with
  | nil => exact List.Sublist.refl _
  | cons x ps ih =>
    obtain ⟨q, g⟩ := x
    rw [things]
    split
    · exact List.Sublist.cons_cons _ ih
    · exact List.Sublist.cons _ ih

theorem possibles_sorted (w : World) (dirs : List Text) : ((possibles w dirs).map (·.2)).Pairwise Before := by
  rw [List.pairwise_map]
  refine List.Pairwise.imp (fun h => (leText_iff _ _).mp h) (List.pairwise_mergeSort (le := fun a b : Text × Text => leText a.2 b.2) ?_ ?_ _)
  · intro a b c h1 h2
    exact leText_trans _ _ _ h1 h2
  · intro a b
    exact leText_total _ _

theorem found_mem (w : World) (dirs : List Text) (p f : Text) : (p, f) ∈ found w dirs ↔ p ∈ dirs ∧ f ∈ w.walk p ∧ w.source p f = true := by
  unfold found
  simp only [List.mem_flatMap, List.mem_map, List.mem_filter]
  constructor
  · rintro ⟨q, hq, g, hg, e⟩
    cases e
    exact ⟨hq, hg⟩
  · rintro ⟨h1, h2⟩
    exact ⟨p, h1, f, h2, rfl⟩

theorem found_nodup (w : World) (dirs : List Text) (hw : ∀ p ∈ dirs, (w.walk p).Nodup)
    (hd : dirs.Pairwise fun p q => ∀ f, f ∈ w.walk p → f ∉ w.walk q) : ((found w dirs).map (·.2)).Nodup := by
  induction dirs with
  | nil => simp [found]
  | cons p dirs ih =>
    rw [List.pairwise_cons] at hd
    have ih := ih (fun q hq => hw q (by simp [hq])) hd.2
    have hf : found w (p :: dirs) = (((w.walk p).filter (w.source p)).map fun f => (p, f)) ++ found w dirs := by
      unfold found
      rw [List.flatMap_cons]
    rw [hf, List.map_append, List.nodup_append]
    refine ⟨?_, ih, ?_⟩
    · rw [List.map_map]
      have : ((fun x : Text × Text => x.2) ∘ fun f => (p, f)) = id := rfl
      rw [this, List.map_id]
      exact (hw p (by simp)).sublist List.filter_sublist
    · intro a ha b hb e
      subst e
      simp only [List.map_map, List.mem_map, List.mem_filter, Function.comp] at ha
      obtain ⟨f, ⟨hf1, -⟩, rfl⟩ := ha
      simp only [List.mem_map] at hb
      obtain ⟨⟨q, g⟩, hg, rfl⟩ := hb
      obtain ⟨h1, h2, -⟩ := (found_mem w dirs q g).mp hg
      exact hd.1 q h1 g hf1 h2

/-! ## C254 -/

/-- Exactly the wanted entries are built, and every source is counted. -/
theorem found_exact (w : World) (cwd : List Text) (isDir : Text → Bool) (dirs : List Text) :
    (∀ e, e ∈ (findThings w cwd isDir dirs).2 ↔ Wanted w (dirs.map (myAbsPath cwd isDir)) e) ∧
    (findThings w cwd isDir dirs).1 = ((dirs.map (myAbsPath cwd isDir)).map fun p => (w.walk p).countP (w.source p)).sum := by
  constructor
  · intro e
    unfold findThings Wanted
    simp only []
    rw [things_mem]
    unfold possibles
    rw [List.mem_mergeSort, found_mem]
    constructor
    · rintro ⟨⟨h1, h2, h3⟩, h4, h5⟩; exact ⟨h1, h2, h3, h4, h5⟩
    · rintro ⟨h1, h2, h3, h4, h5⟩; exact ⟨⟨h1, h2, h3⟩, h4, h5⟩
  · unfold findThings possibles
    simp only []
    rw [List.length_mergeSort]
    unfold found
    rw [List.length_flatMap]
    simp only [List.length_map, List.countP_eq_length_filter]

/-- They come in the order of their names. -/
theorem found_order (w : World) (cwd : List Text) (isDir : Text → Bool) (dirs : List Text) :
    ((findThings w cwd isDir dirs).2.map fun e => e.2.1).Pairwise Before :=
  (possibles_sorted w _).sublist (things_sub w _)

/-- No source is built twice if the directories have no file in common. -/
theorem found_once_partial (w : World) (cwd : List Text) (isDir : Text → Bool) (dirs : List Text)
    (hw : ∀ p ∈ dirs, (w.walk (myAbsPath cwd isDir p)).Nodup)
    (hd : (dirs.map (myAbsPath cwd isDir)).Pairwise fun p q => ∀ f, f ∈ w.walk p → f ∉ w.walk q) :
    ((findThings w cwd isDir dirs).2.map fun e => e.2.1).Nodup := by
  refine List.Nodup.sublist (things_sub w _) ?_
  have h := found_nodup w (dirs.map (myAbsPath cwd isDir)) (by
    intro p hp
    obtain ⟨d, hd, rfl⟩ := List.mem_map.mp hp
    exact hw d hd) hd
  exact ((List.mergeSort_perm _ _).map _).nodup_iff.mpr h

/-- False without it: for a directory and one below it the same file is built twice, into the same result. -/
theorem found_once_false : ∃ (w : World) (cwd : List Text) (isDir : Text → Bool) (dirs : List Text) (p q f d : Text), dirs.Nodup ∧ (∀ x, (w.walk x).Nodup) ∧ p ≠ q ∧
    (p, f, d) ∈ (findThings w cwd isDir dirs).2 ∧ (q, f, d) ∈ (findThings w cwd isDir dirs).2 := by
  refine ⟨⟨fun p => if p = ['/', 'a'] ∨ p = ['/', 'a', '/', 'b'] then [['/', 'a', '/', 'b', '/', 'x']] else [], fun _ _ => true, fun _ f => f ++ ['z'], fun _ => false, fun _ _ _ => false⟩, [], fun _ => true,
    [['/', 'a'], ['/', 'a', '/', 'b']], ['/', 'a'], ['/', 'a', '/', 'b'], ['/', 'a', '/', 'b', '/', 'x'], ['/', 'a', '/', 'b', '/', 'x', 'z'], by decide, fun x => (by simp only []; split <;> simp), by decide, ?_, ?_⟩
  · exact ((found_exact _ _ _ _).1 _).mpr ⟨by decide, by decide, rfl, rfl, Or.inl rfl⟩
  · exact ((found_exact _ _ _ _).1 _).mpr ⟨by decide, by decide, rfl, rfl, Or.inl rfl⟩

/-- The absolute name means the same as the one given, from any directory, for directories, for relative names, and for files that are not right below the root. -/
theorem abs_same_partial (cwd cwd' : List Text) (hc : ∀ c ∈ cwd, Step c) (isDir : Text → Bool) (t : Text) (cs : List Text)
    (ht : isDir t = true ∨ (¬ ∃ r, t = '/' :: r) ∨ ∃ p n, t = p ++ '/' :: n ∧ p ≠ [] ∧ n ≠ [] ∧ '/' ∉ n) (h : Means cwd t cs) :
    Means cwd' (myAbsPath cwd isDir t) cs := by
  have key : ∀ u : Text, (∃ r, u = '/' :: r) → place cwd' u = place cwd u := by
    rintro u ⟨r, rfl⟩; rfl
  have app : ∀ p n : Text, Means cwd' (absPath cwd p ++ '/' :: n) (place cwd p ++ steps n) := by
    intro p n
    obtain ⟨h1, r, h2⟩ := absPath_slash cwd hc p n
    rw [means_place, ← h1]
    unfold place
    rw [h2]
    rfl
  rw [means_place] at h
  subst h
  unfold myAbsPath
  split
  · rw [means_place, key _ (absPath_slash cwd hc t []).2, absPath_place cwd hc]
  · rename_i hd
    split
    · rename_i p n hcut
      obtain ⟨rfl, hp, hn, hs⟩ := (cutLast_iff _ _ _).mp hcut
      have : place cwd (p ++ '/' :: n) = place cwd p ++ steps n := by
        have rel : ∀ (c : Char) (r : Text), c ≠ '/' → place cwd (c :: r) = cwd ++ steps (c :: r) := by
          intro c r hcr
          exact if_neg (by simpa using hcr)
        cases p with
        | nil => exact absurd rfl hp
        | cons c p =>
          by_cases hcc : c = '/'
          · subst hcc
            exact steps_slash ('/' :: p) n
          · rw [List.cons_append, rel c _ hcc, rel c _ hcc, ← List.cons_append, steps_slash, List.append_assoc]
      rw [this]
      exact app p n
    · rename_i hcut
      rcases ht with ht | ht | ⟨p, n, h1, h2, h3, h4⟩
      · exact absurd ht hd
      · have h1 : place cwd t = cwd ++ steps t := by
          unfold place
          rw [if_neg]
          intro hh
          cases t with
          | nil => cases hh
          | cons c r =>
            simp only [List.head?_cons, Option.some.injEq] at hh
            exact ht ⟨r, by rw [hh]⟩
        have h2 : place cwd ['.'] = cwd := by
          show cwd ++ steps ['.'] = cwd
          rw [show steps ['.'] = [] from rfl, List.append_nil]
        have := app ['.'] t
        rw [h2] at this
        rw [h1]
        exact this
      · rw [(cutLast_iff t p n).mpr ⟨h1, h2, h3, h4⟩] at hcut
        cases hcut

/-- False for a file right below the root: it is looked for below the working directory. -/
theorem abs_root_false (cwd : List Text) (hc : ∀ c ∈ cwd, Step c) (hne : cwd ≠ []) (isDir : Text → Bool) (n : Text) (hn : Step n) (hd : isDir ('/' :: n) = false) :
    Means cwd ('/' :: n) [n] ∧ Means cwd (myAbsPath cwd isDir ('/' :: n)) (cwd ++ [n]) ∧ ¬ Means cwd (myAbsPath cwd isDir ('/' :: n)) [n] := by
  have h0 : Means cwd (myAbsPath cwd isDir ('/' :: n)) (cwd ++ [n]) := by
    have hcut : cutLast ('/' :: n) = none := by
      cases hx : cutLast ('/' :: n) with
      | none => rfl
      | some pn =>
        obtain ⟨p, m⟩ := pn
        obtain ⟨h1, h2, h3, h4⟩ := (cutLast_iff _ _ _).mp hx
        cases p with
        | nil => exact absurd rfl h2
        | cons c p =>
          simp only [List.cons_append, List.cons.injEq] at h1
          exact absurd (show '/' ∈ n by rw [h1.2]; simp) hn.2.2
    unfold myAbsPath
    rw [if_neg (by simp [hd]), hcut]
    obtain ⟨h1, r, h2⟩ := absPath_slash cwd hc ['.'] ('/' :: n)
    have h3 : place cwd ['.'] = cwd := by
      show cwd ++ steps ['.'] = cwd
      rw [show steps ['.'] = [] from rfl, List.append_nil]
    have h4 : steps ('/' :: n) = [n] := by
      have := steps_slash [] n
      rw [List.nil_append, show steps [] = [] from rfl, List.nil_append, steps_step n hn] at this
      exact this
    rw [means_place, ← h4]
    rw [h3] at h1
    rw [← h1]
    simp only []
    unfold place
    rw [h2]
    rfl
  refine ⟨Or.inl ⟨n, rfl, Leads.one n hn⟩, h0, fun h => ?_⟩
  rw [means_place] at h h0
  have := congrArg List.length (h0.symm.trans h)
  simp only [List.length_append, List.length_cons, List.length_nil] at this
  exact hne (List.length_eq_zero_iff.mp (by omega))

/-! ### The hypotheses are met -/

example : (['h'] :: ([] : List Text)) ≠ [] ∧ (∀ c ∈ [(['h'] : Text)], Step c) ∧ Step ['x', 'y'] := ⟨by decide, by simp [Step], by simp [Step]⟩

example : myAbsPath [['h']] (fun _ => false) ['a', '/', 'x'] = ['/', 'h', '/', 'a', '/', 'x'] ∧ myAbsPath [['h']] (fun _ => false) ['/', 'x'] = ['/', 'h', '/', '/', 'x'] := by decide

example : Means [['h']] ['.', '/', 'a'] [['h'], ['a']] :=
  Or.inr ⟨fun ⟨r, h⟩ => (by cases h), [['a']], Leads.both ['.'] ['a'] [] [['a']] Leads.dot (Leads.one _ (by simp [Step])), rfl⟩

end Verif.Batch.Find
