import Verif.CMakeMod.DocsMacros
import Verif.CMakeMod.ProgProps

/-! # The macros for latex and manual pages (C267) -/

namespace Verif.CMakeMod.DocsMacros

open Verif.Deptool.Deps (Text)
open Verif.CMakeMod.Prog (World Var Chosen There)

/-! ## Specification -/

/-- The type of manual that a section has by itself. -/
inductive Default : Text → Text → Prop
  | one : Default "1".toList "User Commands".toList
  | other {s} (h : s ≠ "1".toList) : Default s "Unknown".toList

/-- The type of a page: nothing or a dash is the default. -/
inductive TypeOf (s : Text) : List Text → Text → Prop
  | nothing {t} (h : Default s t) : TypeOf s [] t
  | dash {t rest} (h : Default s t) : TypeOf s ("-".toList :: rest) t
  | given {t rest} (h : t ≠ "-".toList) : TypeOf s (t :: rest) t

/-- The name of a page. -/
inductive NameOf (file s : Text) : List Text → Text → Prop
  | guessed {more} (h : more.length < 2) : NameOf file s more (file ++ ".".toList ++ s)
  | given {t n rest} : NameOf file s (t :: n :: rest) n

/-- Where the input is: in the source first. -/
inductive InputOf (d : Dirs) (file : Text) : Text → Prop
  | source (h : d.present (d.source ++ "/".toList ++ file) = true) : InputOf d file (d.source ++ "/".toList ++ file)
  | binary (h : d.present (d.source ++ "/".toList ++ file) = false) : InputOf d file (d.binary ++ "/".toList ++ file)

/-! ## C267: latex -/

theorem chosen_unique (w : World) (old : Option Text) (p q : Text) (hp : Chosen w old p) (hq : Chosen w old q) : p = q := by
  have h := (Prog.path_iff w old p).mpr hp
  rw [(Prog.path_iff w old q).mpr hq] at h
  cases h
  rfl

/-- If latex is not required, cmake never ends; it is used exactly if the user did not turn it off, there is a program, and the program checks itself. -/
theorem latex_optional (w : World) (check : Text → Bool) (v : Var) (hr : v.required = false) :
    ∃ v', latexConfig w check false v = some v' ∧ (v'.enabled = some true ↔ v.withOpt ≠ some false ∧ ∃ p, Chosen w v.path p ∧ check p = true) := by
  obtain ⟨v', h, he, hp⟩ := Prog.with_program w v hr
  unfold latexConfig
  rw [h, Option.bind_some]
  cases hv : v'.path with
  | none =>
    refine ⟨v', rfl, ?_⟩
    have hno : ∀ p, ¬ Chosen w v.path p := fun p hc => by rw [(hp p).mpr hc] at hv; cases hv
    rw [he]
    constructor
    · rintro ⟨_, ht⟩
      obtain ⟨p, hs⟩ := Option.isSome_iff_exists.mp ((Prog.there_iff w v.path).mpr ht)
      exact absurd ((Prog.path_iff w v.path p).mp hs) (hno p)
    · rintro ⟨_, p, hc, _⟩
      exact absurd hc (hno p)
  | some p =>
    have hc : Chosen w v.path p := (hp p).mp hv
    have ht : There w v.path := (Prog.there_iff w v.path).mp (by rw [(Prog.path_iff w v.path p).mpr hc]; rfl)
    by_cases hk : check p = true
    · refine ⟨v', if_pos hk, ?_⟩
      rw [he]
      exact and_congr_right fun _ => ⟨fun _ => ⟨p, hc, hk⟩, fun _ => ht⟩
    · refine ⟨{ v' with path := some p, enabled := none }, ?_, ?_⟩
      · show (if check p = true then some v' else _) = _
        rw [if_neg hk]
        rfl
      · constructor
        · intro h
          cases h
        · rintro ⟨_, q, hq, hkq⟩
          rw [chosen_unique w v.path q p hq hc] at hkq
          exact absurd hkq hk

/-- If it is required, cmake ends exactly if there is a program that fails to check itself, even if the user turned it off. -/
theorem latex_required_partial (w : World) (check : Text → Bool) (v : Var) (hr : v.required = false) :
    latexConfig w check true v = none ↔ ∃ p, Chosen w v.path p ∧ check p = false := by
  obtain ⟨v', h, he, hp⟩ := Prog.with_program w v hr
  unfold latexConfig
  rw [h, Option.bind_some]
  cases hv : v'.path with
  | none =>
    constructor
    · intro h
      cases h
    · rintro ⟨p, hc, _⟩
      rw [(hp p).mpr hc] at hv
      cases hv
  | some p =>
    have hc : Chosen w v.path p := (hp p).mp hv
    show (if check p = true then some v' else none) = none ↔ _
    constructor
    · intro h
      split at h
      · cases h
      · rename_i hk
        exact ⟨p, hc, Bool.eq_false_iff.mpr hk⟩
    · rintro ⟨q, hq, hk⟩
      rw [chosen_unique w v.path q p hq hc] at hk
      rw [hk]
      rfl

/-- False: that LINTEL_LATEX_REBUILD_REQUIRED requires that the program is found, as documented. -/
theorem latex_required_false (w : World) (check : Text → Bool) (v : Var) (hr : v.required = false) (hn : ¬ There w v.path) :
    ∃ v', latexConfig w check true v = some v' ∧ v'.enabled ≠ some true := by
  cases h : latexConfig w check true v with
  | none =>
    obtain ⟨p, hc, _⟩ := (latex_required_partial w check v hr).mp h
    exact absurd ((Prog.there_iff w v.path).mp (by rw [(Prog.path_iff w v.path p).mpr hc]; rfl)) hn
  | some u =>
    refine ⟨u, rfl, ?_⟩
    obtain ⟨v', h', he, hp⟩ := Prog.with_program w v hr
    unfold latexConfig at h
    rw [h', Option.bind_some] at h
    cases hv : v'.path with
    | some p => exact absurd ((Prog.there_iff w v.path).mp (by rw [(Prog.path_iff w v.path p).mpr ((hp p).mp hv)]; rfl)) hn
    | none =>
      rw [hv] at h
      cases h
      exact fun h => hn (he.mp h).2

theorem fold_false (out : Text → Text) (there : Text → Bool) (files : List Text) : files.foldl (fun b f => latexFile out there f b) false = false := by
  induction files with
  | nil => rfl
  | cons f fs ih =>
    rw [List.foldl_cons]
    have : latexFile out there f false = false := by
      unfold latexFile
      split
      · rfl
      · split <;> rfl
    rw [this, ih]

/-- A document has what it requires exactly if latex is used and each file is found and is there; one missing file is never forgotten because of later ones. -/
theorem latex_requires (out : Text → Text) (there : Text → Bool) (enabled : Bool) (files : List Text) :
    latexRequires out there enabled files = true ↔ enabled = true ∧ ∀ f ∈ files, out f ≠ [] ∧ there (out f) = true := by
  unfold latexRequires
  cases enabled with
  | false => simp
  | true =>
    rw [if_pos rfl]
    simp only [true_and]
    induction files with
    | nil => simp
    | cons f fs ih =>
      rw [List.foldl_cons, List.forall_mem_cons]
      by_cases h1 : out f = []
      · have : latexFile out there f true = false := if_pos h1
        rw [this, fold_false]
        simp [h1]
      · cases h2 : there (out f) with
        | false =>
          have : latexFile out there f true = false := by
            unfold latexFile
            rw [if_neg h1, h2]
            rfl
          rw [this, fold_false]
          simp
        | true =>
          have : latexFile out there f true = true := by
            unfold latexFile
            rw [if_neg h1, h2]
            rfl
          rw [this, ih]
          exact ⟨fun h => ⟨⟨h1, rfl⟩, h⟩, fun h => h.2⟩

/-! ## C267: manual pages -/

theorem type_of (s : Text) (more : List Text) : TypeOf s more (pageType s more.head?) := by
  have hd : Default s (if s = ['1'] then userCommands else unknown) := by
    split
    · rename_i h
      rw [h]
      exact .one
    · rename_i h
      exact .other h
  cases more with
  | nil => exact .nothing hd
  | cons t rest =>
    show TypeOf s (t :: rest) (if t = ['-'] then _ else t)
    by_cases h : t = ['-']
    · rw [if_pos h, h]
      exact .dash hd
    · rw [if_neg h]
      exact .given h

theorem name_of (file s : Text) (more : List Text) : NameOf file s more ((more[1]?).getD (file ++ '.' :: s)) := by
  have e : file ++ '.' :: s = file ++ ".".toList ++ s := by rw [List.append_assoc]; rfl
  rw [e]
  match more with
  | [] => exact .guessed (by simp)
  | [_] => exact .guessed (by simp)
  | _ :: _ :: _ => exact .given

/-- With arguments that are not empty, the page is made of the right input, with the right name and type, for its section. -/
theorem page_partial (d : Dirs) (file sec release : Text) (more : List Text) (h : ∀ a ∈ file :: sec :: release :: more, a ≠ []) :
    ∃ input name type, pod2man d (some true) file sec release more = .made input name release type (d.prefixDir ++ "/share/man/man".toList ++ sec) ∧
      InputOf d file input ∧ NameOf file sec more name ∧ TypeOf sec more type := by
  have hf : (file :: sec :: release :: more).filter (· ≠ []) = file :: sec :: release :: more := by
    rw [List.filter_eq_self]
    intro a ha
    simp [h a ha]
  unfold pod2man
  simp only [hf]
  refine ⟨_, _, _, rfl, ?_, name_of file sec more, type_of sec more⟩
  have e : ∀ t : Text, t ++ '/' :: file = t ++ "/".toList ++ file := fun t => by rw [List.append_assoc]; rfl
  rw [e, e]
  split
  · rename_i hp
    exact .source hp
  · rename_i hp
    exact .binary (Bool.eq_false_iff.mpr hp)

/-- Without pod2man there is a warning and no page; without the setup, an error. -/
theorem page_without (d : Dirs) (file sec release : Text) (more : List Text) :
    pod2man d (some false) file sec release more = .warned ∧ pod2man d none file sec release more = .fatal := ⟨rfl, rfl⟩

/-- False: that an empty release is the release: the next argument is taken for it, and if there is none cmake ends. -/
theorem empty_release_false (d : Dirs) (file sec t : Text) (hf : file ≠ []) (hs : sec ≠ []) (ht : t ≠ []) :
    pod2man d (some true) file sec [] [] = .fatal ∧ ∃ i n ty m, pod2man d (some true) file sec [] [t] = .made i n t ty m := by
  unfold pod2man
  constructor
  · simp [hf, hs, pageActual]
  · simp only [List.filter_cons, hf, hs, ht, ne_eq, not_false_eq_true, decide_true, if_true, not_true_eq_false, decide_false, Bool.false_eq_true, if_false, List.filter_nil]
    exact ⟨_, _, _, _, rfl⟩

/-! ### The hypotheses are met -/

example : pod2man ⟨['s'], ['b'], ['/', 'u'], fun t => t == ['s', '/', 'f']⟩ (some true) ['f'] ['1'] ['r'] [] =
    .made ['s', '/', 'f'] ['f', '.', '1'] ['r'] "User Commands".toList "/u/share/man/man1".toList := by decide

example : (latexConfig Prog.demo (fun _ => false) false {}).map (·.enabled) = some none := by decide

example : latexRequires (fun f => f) (fun f => f == ['a']) true [['a'], ['b'], ['a']] = false := by decide

end Verif.CMakeMod.DocsMacros
