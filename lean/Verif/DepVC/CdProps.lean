import Verif.DepVC.Cd
import Verif.Deptool.DepsProps

/-! # C205: cdsrc, cdopt and cddebug go between parallel directories -/

namespace Verif.DepVC.Cd

open Verif.Deptool.Deps (Text isWord word cutLast splitType under divideDir under_append splitType_type)

/-! ## The specification -/

inductive Place where
  | src | opt | debug

/-- Where somebody is: in the source or a build of a directory of a project, and the type last used for each project. -/
structure Pos where
  place : Place
  proj : Text
  sub : Text
  last : Text → Text

/-- A type: letters, digits and underscores, or none. -/
def Type' (t : Text) : Prop := ∀ c ∈ t, c.isAlphanum = true ∨ c = '_'

/-- The name of a project: no slash, and no such type after a hyphen. -/
structure Name (p : Text) : Prop where
  some : p ≠ []
  slash : '/' ∉ p
  hyphen : ∀ a t, p = a ++ '-' :: t → a = [] ∨ t = [] ∨ ¬ Type' t

/-- A directory below: nothing, or a slash and more. -/
def Sub (s : Text) : Prop := s = [] ∨ ∃ r, r ≠ [] ∧ s = '/' :: r

/-- The directory. -/
def Pos.dir (T : Trees) (x : Pos) : Text :=
  match x.place with
  | .src => T.projects ++ ('/' :: x.proj ++ x.sub)
  | .opt => T.opt ++ ('/' :: x.proj ++ (if x.last x.proj = [] then [] else '-' :: x.last x.proj) ++ x.sub)
  | .debug => T.debug ++ ('/' :: x.proj ++ (if x.last x.proj = [] then [] else '-' :: x.last x.proj) ++ x.sub)

/-- What the documentation says: the place changes, the rest stays; a type that is given is used from then on for the project. -/
def Pos.step (x : Pos) : Move → Pos
  | .src => { x with place := .src }
  | .build d none => { x with place := if d then .debug else .opt }
  | .build d (some t) => { x with place := if d then .debug else .opt, last := fun q => if q = x.proj then t else x.last q }
  | .go p sub => { x with place := .src, proj := p, sub := sub }

/-- No directory is in two of the trees. -/
structure Apart (T : Trees) : Prop where
  po : ∀ x, ¬ ((T.projects ++ ['/']) <+: x ∧ (T.opt ++ ['/']) <+: x)
  pd : ∀ x, ¬ ((T.projects ++ ['/']) <+: x ∧ (T.debug ++ ['/']) <+: x)
  od : ∀ x, ¬ ((T.opt ++ ['/']) <+: x ∧ (T.debug ++ ['/']) <+: x)

/-- What is typed in makes sense. -/
def MoveOk (U : Text → Prop) (isDir : Text → Bool) (T : Trees) : Move → Prop
  | .src => True
  | .build _ none => True
  | .build _ (some t) => Type' t
  | .go p sub => U p ∧ Sub sub ∧ isDir (T.projects ++ ('/' :: p ++ sub)) = true

/-- The name of a project in its variable: what is not a letter or digit becomes an underscore. -/
def varOf : Text → Text
  | [] => []
  | c :: p => (if c.isAlphanum = true then c else '_') :: varOf p

/-! ## Lemmas -/

theorem clean_eq (p : Text) : clean p = varOf p := by
  induction p with
  | nil => rfl
  | cons c p ih =>
    have h : clean (c :: p) = (if isWord c then c else '_') :: clean p := rfl
    rw [h, ih]
    show _ = (if c.isAlphanum = true then c else '_') :: varOf p
    unfold isWord
    by_cases hc : c.isAlphanum = true
    · simp [hc]
    · by_cases hu : c = '_'
      · simp [hu]
      · simp [hc, hu]

theorem word_iff (t : Text) : word t = true ↔ t ≠ [] ∧ Type' t := by
  unfold word Type' isWord
  simp only [Bool.and_eq_true, Bool.not_eq_true', List.isEmpty_eq_false_iff, List.all_eq_true, Bool.or_eq_true, beq_iff_eq, ne_eq]

theorem splitType_name (p : Text) (h : Name p) : splitType '-' p = (p, []) := by
  unfold splitType
  cases hc : cutLast '-' p with
  | none => rfl
  | some x =>
    obtain ⟨a, t⟩ := x
    have hp : p = a ++ '-' :: t := by
      have : ∀ (p a t : Text), cutLast '-' p = some (a, t) → p = a ++ '-' :: t := by
        intro p
        induction p with
        | nil => intro a t h; cases h
        | cons c p ih =>
          intro a t h
          unfold cutLast at h
          cases hq : cutLast '-' p with
          | some y =>
            rw [hq] at h
            obtain ⟨y1, y2⟩ := y
            simp only [Option.some.injEq, Prod.mk.injEq] at h
            obtain ⟨rfl, rfl⟩ := h
            rw [ih _ _ hq]; rfl
          | none =>
            rw [hq] at h
            simp only at h
            split at h
            · rename_i hx
              simp only [Option.some.injEq, Prod.mk.injEq] at h
              obtain ⟨rfl, rfl⟩ := h
              rw [hx]; rfl
            · cases h
      exact this p a t hc
    simp only
    rw [if_neg]
    simp only [Bool.and_eq_true, Bool.not_eq_true', List.isEmpty_eq_false_iff]
    rintro ⟨ha, hw⟩
    have hw := (word_iff t).mp hw
    rcases h.hyphen a t hp with h1 | h1 | h1
    · exact ha h1
    · exact hw.1 h1
    · exact h1 hw.2

theorem under_none (base dir : Text) (h : ¬ (base ++ ['/']) <+: dir) : under base dir = none := by
  unfold under
  rw [if_neg]
  intro hp
  exact h (List.isPrefixOf_iff_prefix.mp hp)

theorem prefix_own (base c : Text) : (base ++ ['/']) <+: base ++ '/' :: c := ⟨c, by simp⟩

/-- The component of a build directory. -/
theorem comp_type (p t : Text) (hp : Name p) (ht : Type' t) : p ++ dashed t ≠ [] ∧ '/' ∉ p ++ dashed t ∧ splitType '-' (p ++ dashed t) = (p, t) := by
  unfold dashed
  by_cases hn : t = []
  · rw [if_pos hn, List.append_nil, hn]
    exact ⟨hp.some, hp.slash, splitType_name p hp⟩
  · rw [if_neg hn]
    have hw := (word_iff t).mpr ⟨hn, ht⟩
    refine ⟨by simp, ?_, splitType_type '-' (by decide) p t hp.some hw⟩
    simp only [List.mem_append, List.mem_cons, not_or]
    exact ⟨hp.slash, by decide, Deptool.Deps.word_no '/' (by decide) t hw⟩

theorem divide_src (T : Trees) (p sub : Text) (hp : Name p) (hs : Sub sub) : divideDir T.projects T.opt T.debug (T.projects ++ '/' :: (p ++ sub)) = some (p, sub, []) := by
  unfold divideDir
  rw [under_append _ p sub hp.slash hp.some hs]

theorem divide_opt (T : Trees) (hT : Apart T) (p t sub : Text) (hp : Name p) (ht : Type' t) (hs : Sub sub) :
    divideDir T.projects T.opt T.debug (T.opt ++ '/' :: (p ++ (dashed t ++ sub))) = some (p, sub, t) := by
  obtain ⟨h1, h2, h3⟩ := comp_type p t hp ht
  unfold divideDir
  rw [under_none _ _ fun h => hT.po _ ⟨h, prefix_own _ _⟩, ← List.append_assoc p, under_append _ _ sub h2 h1 hs]
  simp only [h3]

theorem divide_debug (T : Trees) (hT : Apart T) (p t sub : Text) (hp : Name p) (ht : Type' t) (hs : Sub sub) :
    divideDir T.projects T.opt T.debug (T.debug ++ '/' :: (p ++ (dashed t ++ sub))) = some (p, sub, t) := by
  obtain ⟨h1, h2, h3⟩ := comp_type p t hp ht
  unfold divideDir
  rw [under_none _ _ fun h => hT.pd _ ⟨h, prefix_own _ _⟩, under_none _ _ fun h => hT.od _ ⟨h, prefix_own _ _⟩, ← List.append_assoc p, under_append _ _ sub h2 h1 hs]
  simp only [h3]

/-- What holds at all times. -/
structure Inv (U : Text → Prop) (T : Trees) (isDir : Text → Bool) (s : Shell) (x : Pos) : Prop where
  cwd : s.cwd = x.dir T
  proj : U x.proj
  sub : Sub x.sub
  dir : isDir (T.projects ++ ('/' :: x.proj ++ x.sub)) = true
  last : ∀ p, U p → (s.env (clean p)).getD [] = x.last p
  type : ∀ p, U p → Type' (x.last p)

theorem divide_at {U : Text → Prop} {T : Trees} {isDir : Text → Bool} {s : Shell} {x : Pos} (hT : Apart T) (hU : ∀ p, U p → Name p) (h : Inv U T isDir s x) :
    ∃ f, divideDir T.projects T.opt T.debug s.cwd = some (x.proj, x.sub, f) ∧ (f = [] ∨ f = x.last x.proj) := by
  have hn := hU _ h.proj
  have ht := h.type _ h.proj
  rw [h.cwd]
  unfold Pos.dir
  cases x.place with
  | src => exact ⟨[], divide_src T _ _ hn h.sub, Or.inl rfl⟩
  | opt =>
    refine ⟨_, ?_, Or.inr rfl⟩
    have := divide_opt T hT x.proj (x.last x.proj) x.sub hn ht h.sub
    simpa [dashed] using this
  | debug =>
    refine ⟨_, ?_, Or.inr rfl⟩
    have := divide_debug T hT x.proj (x.last x.proj) x.sub hn ht h.sub
    simpa [dashed] using this

theorem typeFor_last (env : Text → Option Text) (p f l : Text) (hl : (env (clean p)).getD [] = l) (hf : f = [] ∨ f = l) (arg : Option Text) :
    typeFor env p f arg = arg.getD l := by
  unfold typeFor
  cases arg with
  | some a => rfl
  | none =>
    simp only [Option.getD_none]
    split
    · exact hl
    · rename_i h; exact hf.resolve_left h

theorem step_inv {U : Text → Prop} {T : Trees} {isDir : Text → Bool} (hT : Apart T) (hU : ∀ p, U p → Name p) (hc : ∀ p q, U p → U q → clean p = clean q → p = q)
    (s : Shell) (x : Pos) (h : Inv U T isDir s x) (m : Move) (hm : MoveOk U isDir T m) : Inv U T isDir (step T isDir s m) (x.step m) := by
  obtain ⟨f, hd, hf⟩ := divide_at hT hU h
  cases m with
  | src =>
    simp only [step, cdSrc, hd]
    rw [if_pos (show isDir (T.projects ++ '/' :: (x.proj ++ x.sub)) = true from h.dir)]
    exact ⟨by simp [Pos.step, Pos.dir], h.proj, h.sub, h.dir, h.last, h.type⟩
  | go p sub =>
    obtain ⟨h1, h2, h3⟩ := hm
    exact ⟨by simp [step, Pos.step, Pos.dir], h1, h2, h3, h.last, h.type⟩
  | build d a =>
    have hb : ∀ t, typeFor s.env x.proj f a = t → Type' t → ∀ y : Pos, y.place = (if d then .debug else .opt) → y.proj = x.proj → y.sub = x.sub →
        (∀ q, y.last q = if q = x.proj then t else x.last q) → Inv U T isDir (cdBuild T d a s) y := by
      intro t htf htt y h1 h2 h3 h4
      have hl : y.last y.proj = t := by rw [h4, h2, if_pos rfl]
      simp only [cdBuild, hd, htf]
      refine ⟨?_, by rw [h2]; exact h.proj, by rw [h3]; exact h.sub, by rw [h2, h3]; exact h.dir, ?_, ?_⟩
      · unfold Pos.dir
        rw [h1, hl, h2, h3]
        cases d <;> simp [dashed]
      · intro p hp
        rw [h4]
        show (if clean p = clean x.proj then some t else s.env (clean p)).getD [] = _
        by_cases hq : p = x.proj
        · rw [hq, if_pos rfl, if_pos rfl]; rfl
        · rw [if_neg hq, if_neg fun hcl => hq (hc p x.proj hp h.proj hcl)]
          exact h.last p hp
      · intro p hp
        rw [h4]
        split
        · exact htt
        · exact h.type p hp
    have ht := typeFor_last s.env x.proj f _ (h.last _ h.proj) hf a
    cases a with
    | none =>
      refine hb (x.last x.proj) ht (h.type _ h.proj) _ rfl rfl rfl ?_
      intro q
      show x.last q = _
      split
      · rename_i hq; rw [hq]
      · rfl
    | some t => exact hb t ht hm _ rfl rfl rfl fun q => rfl

/-- C205. Whatever commands are given, in any order and for any projects of a set `U` of projects (that have different variables), the shell is in the directory of the project that corresponds to where it was, in the tree that was asked for, and in the build of the type that was last asked for in that project (or that the environment had). -/
theorem cd_partial (U : Text → Prop) (T : Trees) (isDir : Text → Bool) (hT : Apart T) (hU : ∀ p, U p → Name p)
    (hc : ∀ p q, U p → U q → varOf p = varOf q → p = q) (p sub : Text) (hp : U p) (hs : Sub sub) (hdir : isDir (T.projects ++ ('/' :: p ++ sub)) = true)
    (env : Text → Option Text) (henv : ∀ k t, env k = some t → Type' t) (ms : List Move) (hm : ∀ m ∈ ms, MoveOk U isDir T m) :
    (run T isDir { cwd := T.projects ++ ('/' :: p ++ sub), env := env } ms).cwd =
      (ms.foldl Pos.step { place := .src, proj := p, sub := sub, last := fun q => (env (varOf q)).getD [] }).dir T := by
  simp only [← clean_eq] at hc ⊢
  have h0 : Inv U T isDir { cwd := T.projects ++ ('/' :: p ++ sub), env := env } { place := .src, proj := p, sub := sub, last := fun q => (env (clean q)).getD [] } := by
    refine ⟨rfl, hp, hs, hdir, fun _ _ => rfl, ?_⟩
    intro q _
    show Type' ((env (clean q)).getD [])
    cases he : env (clean q) with
    | none => intro c hc; cases hc
    | some t => exact henv _ t he
  unfold run
  generalize ({ cwd := T.projects ++ ('/' :: p ++ sub), env := env } : Shell) = s at h0
  generalize ({ place := .src, proj := p, sub := sub, last := fun q => (env (clean q)).getD [] } : Pos) = x at h0
  induction ms generalizing s x with
  | nil => exact h0.cwd
  | cons m ms ih =>
    rw [List.foldl_cons, List.foldl_cons]
    exact ih (fun m' h' => hm m' (by simp [h'])) _ _ (step_inv hT hU hc s x h0 m (hm m (by simp)))

/-- Trees next to each other, as the documentation has them. -/
def demo : Trees := ⟨['/', 'p'], ['/', 'o'], ['/', 'd']⟩

theorem demo_apart : Apart demo := by
  refine ⟨?_, ?_, ?_⟩ <;>
  · rintro x ⟨⟨a, rfl⟩, ⟨b, hb⟩⟩
    simp [demo] at hb

theorem noEnv_type : ∀ (k t : Text), (fun _ => none : Text → Option Text) k = some t → Type' t := by
  intro k t h; cases h

/-- `/p/L/s`, `cdopt g`, `cdsrc`, `cddebug`: `/d/L-g/s`. -/
example : (run demo (fun _ => true) { cwd := ['/', 'p', '/', 'L', '/', 's'], env := fun _ => none } [.build false (some ['g']), .src, .build true none]).cwd =
    ['/', 'd', '/', 'L', '-', 'g', '/', 's'] := by decide

example : Name ['L'] ∧ Sub ['/', 's'] ∧ Type' ['g'] := by
  refine ⟨⟨by simp, by decide, ?_⟩, Or.inr ⟨['s'], by simp, rfl⟩, ?_⟩
  · intro a t h
    cases a with
    | nil => exact Or.inl rfl
    | cons c a => simp at h
  · intro c hc; rw [List.mem_singleton] at hc; subst hc; decide

/-- C205 is false of the code for other types: `gcc-4` is taken, but from the build one does not come back to the source. -/
theorem cd_type_false : ∃ (T : Trees) (isDir : Text → Bool) (p t : Text), Apart T ∧ Name p ∧ isDir (T.projects ++ '/' :: p) = true ∧
    (run T isDir { cwd := T.projects ++ '/' :: p, env := fun _ => none } [.build false (some t), .src]).cwd ≠ T.projects ++ '/' :: p := by
  refine ⟨demo, fun d => decide (d = ['/', 'p', '/', 'L']), ['L'], ['g', 'c', 'c', '-', '4'], demo_apart, ⟨by simp, by decide, ?_⟩, by decide, by decide⟩
  intro a t h
  cases a with
  | nil => exact Or.inl rfl
  | cons c a => simp at h

/-- C205 is false of the code for projects with similar names: `a.b` and `a_b` share the type. -/
theorem cd_share_false : ∃ (T : Trees) (p q t : Text), Apart T ∧ Name p ∧ Name q ∧ p ≠ q ∧ Type' t ∧
    (run T (fun _ => true) { cwd := T.projects ++ '/' :: p, env := fun _ => none } [.build false (some t), .go q [], .build false none]).cwd ≠ T.opt ++ '/' :: q := by
  refine ⟨demo, ['a', '.', 'b'], ['a', '_', 'b'], ['g'], demo_apart, ⟨by simp, by decide, ?_⟩, ⟨by simp, by decide, ?_⟩, by decide, ?_, by decide⟩
  · intro a t h
    have : '-' ∈ (['a', '.', 'b'] : Text) := by rw [h]; simp
    exact absurd this (by decide)
  · intro a t h
    have : '-' ∈ (['a', '_', 'b'] : Text) := by rw [h]; simp
    exact absurd this (by decide)
  · intro c hc; rw [List.mem_singleton] at hc; subst hc; decide

/-- C205 is false of the code if the builds are below the projects: `cdsrc` stays in the build. -/
theorem cd_nested_false : ∃ (T : Trees) (p : Text), Name p ∧
    (run T (fun _ => true) { cwd := T.projects ++ '/' :: p, env := fun _ => none } [.build false none, .src]).cwd ≠ T.projects ++ '/' :: p := by
  refine ⟨⟨['/', 'p'], ['/', 'p', '/', 'o'], ['/', 'p', '/', 'd']⟩, ['L'], ⟨by simp, by decide, ?_⟩, by decide⟩
  intro a t h
  cases a with
  | nil => exact Or.inl rfl
  | cons c a => simp at h

end Verif.DepVC.Cd
