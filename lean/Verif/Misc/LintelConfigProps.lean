import Verif.Misc.LintelConfig

/-! # lintel-config (C250) -/

namespace Verif.Misc.LintelConfig

open Verif.Deptool.Deps (Text)

/-! ## Specification -/

/-- Names of features: not empty, without blanks and semicolons. -/
def Names (fs : List Text) : Prop := ∀ f ∈ fs, f ≠ [] ∧ ∀ c ∈ f, c ∉ [' ', '\t', '\n', ';']

/-- Names with a separator between them. -/
def sepBy (x : Char) : List Text → Text
  | [] => []
  | [f] => f
  | f :: fs => f ++ x :: sepBy x fs

/-- An installation below `pre` with the features `fs`, as CMake configures it: a list of CMake is joined by semicolons. -/
def installed (pre : Text) (fs : List Text) (version : Text) : Setup := ⟨pre, sepBy ';' fs, version⟩

/-! ## Lemmas -/

theorem sed_id (f : Text) (h : ∀ c ∈ f, c ∉ [' ', '\t', '\n', ';']) : sed f = f := by
  unfold sed
  conv => rhs; rw [← List.map_id f]
  refine List.map_congr_left fun c hc => ?_
  have := h c hc
  rw [if_neg (fun e => this (by simp [e]))]
  rfl

theorem sed_sep (fs : List Text) (h : Names fs) : sed (sepBy ';' fs) = sepBy ' ' fs := by
  induction fs with
  | nil => rfl
  | cons f fs ih =>
    cases fs with
    | nil => exact sed_id f (h f (by simp)).2
    | cons g gs =>
      show sed (f ++ ';' :: sepBy ';' (g :: gs)) = f ++ ' ' :: sepBy ' ' (g :: gs)
      have h1 := sed_id f (h f (by simp)).2
      have h2 := ih fun x hx => h x (by simp [hx])
      unfold sed at h1 h2 ⊢
      rw [List.map_append, h1, List.map_cons, h2]
      rfl

theorem go_solid (f w r : Text) (h : ∀ c ∈ f, isBlank c = false) : go w (f ++ r) = go (w ++ f) r := by
  induction f generalizing w with
  | nil => simp
  | cons c f ih =>
    rw [List.cons_append, go, h c (by simp)]
    simp only [Bool.false_eq_true, if_false]
    rw [ih _ fun x hx => h x (by simp [hx])]
    simp

theorem not_blank (f : Text) (h : ∀ c ∈ f, c ∉ [' ', '\t', '\n', ';']) : ∀ c ∈ f, isBlank c = false := by
  intro c hc
  have := h c hc
  simp only [List.mem_cons, List.not_mem_nil, or_false, not_or] at this
  simp [isBlank, this]

theorem words_sep (fs : List Text) (h : Names fs) : words (sepBy ' ' fs) = fs := by
  unfold words
  induction fs with
  | nil => rfl
  | cons f fs ih =>
    have hf := h f (by simp)
    cases fs with
    | nil =>
      have := go_solid f [] [] (not_blank f hf.2)
      simp only [List.append_nil, List.nil_append] at this
      show go [] f = [f]
      rw [this, go, if_neg hf.1]
    | cons g gs =>
      show go [] (f ++ ' ' :: sepBy ' ' (g :: gs)) = _
      rw [go_solid _ _ _ (not_blank f hf.2), List.nil_append, go, if_pos (by decide), if_neg hf.1, ih fun x hx => h x (by simp [hx])]

theorem hasFeature_iff (f : Text) (ws : List Text) : hasFeature f ws = 0 ↔ f ∈ ws := by
  induction ws with
  | nil => simp [hasFeature]
  | cons w ws ih =>
    unfold hasFeature
    split
    · rename_i h; simp [h]
    · rename_i h
      rw [ih]
      simp only [List.mem_cons]
      constructor
      · exact Or.inr
      · rintro (rfl | h2)
        · exact absurd rfl h
        · exact h2

theorem hasFeature_le (f : Text) (ws : List Text) : hasFeature f ws = 0 ∨ hasFeature f ws = 1 := by
  induction ws with
  | nil => simp [hasFeature]
  | cons w ws ih => unfold hasFeature; split <;> simp [ih]

theorem echo_sep (ws : List Text) : echo ws = sepBy ' ' ws := by
  induction ws with
  | nil => rfl
  | cons w ws ih =>
    cases ws with
    | nil => rfl
    | cons v vs =>
      show w ++ ' ' :: echo (v :: vs) = w ++ ' ' :: sepBy ' ' (v :: vs)
      rw [ih]

theorem features_words (pre version : Text) (fs : List Text) (h : Names fs) : words (sed (installed pre fs version).features) = fs := by
  show words (sed (sepBy ';' fs)) = fs
  rw [sed_sep fs h, words_sep fs h]

/-! ## C250 -/

/-- `--has-feature f` exits with 0 exactly if `f` is one of the features, otherwise with 1, and prints nothing. Further arguments do not matter; a missing one is no feature. -/
theorem has_feature (pre version : Text) (fs : List Text) (h : Names fs) (args : List Text) :
    (run (installed pre fs version) ("--has-feature".toList :: args)).1 = [] ∧
    ((run (installed pre fs version) ("--has-feature".toList :: args)).2 = 0 ↔ ∃ f, args.head? = some f ∧ f ∈ fs) ∧
    ((run (installed pre fs version) ("--has-feature".toList :: args)).2 ≠ 0 → (run (installed pre fs version) ("--has-feature".toList :: args)).2 = 1) := by
  have hr : run (installed pre fs version) ("--has-feature".toList :: args) = ([], hasFeature (args.headD []) fs) := by
    have : run (installed pre fs version) ("--has-feature".toList :: args) = ([], hasFeature (args.headD []) (words (sed (installed pre fs version).features))) := by
      rfl
    rw [this, features_words pre version fs h]
  rw [hr]
  refine ⟨rfl, ?_, ?_⟩
  · show hasFeature _ fs = 0 ↔ _
    rw [hasFeature_iff]
    cases args with
    | nil =>
      simp only [List.headD_nil, List.head?_nil, reduceCtorEq, false_and, exists_false, iff_false]
      intro hm
      exact (h [] hm).1 rfl
    | cons a args => simp
  · intro hne
    exact (hasFeature_le _ _).resolve_left hne

/-- `--features` prints the features with a space between, and succeeds: its words are exactly those `--has-feature` accepts. -/
theorem features_listed (pre version : Text) (fs : List Text) (h : Names fs) (args : List Text) :
    run (installed pre fs version) ("--features".toList :: args) = ([sepBy ' ' fs], 0) ∧
    ∀ f, (run (installed pre fs version) ["--has-feature".toList, f]).2 = 0 ↔
      f ∈ words ((run (installed pre fs version) ("--features".toList :: args)).1.headD []) := by
  have h1 : run (installed pre fs version) ("--features".toList :: args) = ([sepBy ' ' fs], 0) := by
    have : run (installed pre fs version) ("--features".toList :: args) = ([echo (words (sed (installed pre fs version).features))], 0) := by rfl
    rw [this, features_words pre version fs h, echo_sep]
  refine ⟨h1, fun f => ?_⟩
  rw [h1, (has_feature pre version fs h [f]).2.1]
  show _ ↔ f ∈ words (sepBy ' ' fs)
  rw [words_sep fs h]
  simp

/-- The directories and the version. -/
theorem paths (s : Setup) (args : List Text) :
    run s ("--cflags".toList :: args) = (["-I".toList ++ (s.pre ++ "/include".toList)], 0) ∧
    run s ("--datadir".toList :: args) = ([s.pre ++ "/share".toList], 0) ∧
    run s ("--version".toList :: args) = ([s.version], 0) ∧
    run s ("--libs".toList :: args) =
      ([(if s.pre = "/usr".toList then [] else "-L".toList ++ (s.pre ++ "/lib".toList) ++ [' ']) ++ "-lLintel".toList], 0) := by
  refine ⟨rfl, rfl, rfl, ?_⟩
  have hiff : s.pre ++ ['/', 'l', 'i', 'b'] = ['/', 'u', 's', 'r', '/', 'l', 'i', 'b'] ↔ s.pre = "/usr".toList := by
    constructor
    · intro h
      exact List.append_cancel_right (bs := ['/', 'l', 'i', 'b']) (by rw [h]; rfl)
    · intro h
      rw [h]
      rfl
  have hl : run s ("--libs".toList :: args) = if s.pre ++ ['/', 'l', 'i', 'b'] = ['/', 'u', 's', 'r', '/', 'l', 'i', 'b'] then ([['-', 'l', 'L', 'i', 'n', 't', 'e', 'l']], 0)
    else ([['-', 'L'] ++ (s.pre ++ ['/', 'l', 'i', 'b']) ++ [' ', '-', 'l', 'L', 'i', 'n', 't', 'e', 'l']], 0) := rfl
  rw [hl]
  by_cases h : s.pre = "/usr".toList
  · rw [if_pos (hiff.mpr h), if_pos h]
    rfl
  · rw [if_neg (fun e => h (hiff.mp e)), if_neg h]
    simp

/-- Anything else is refused with status 1. -/
theorem others_refused (s : Setup) (args : List Text)
    (h : args.headD [] ∉ ["--cflags".toList, "--libs".toList, "--features".toList, "--has-feature".toList, "--datadir".toList, "--help".toList, "--version".toList]) :
    (run s args).2 = 1 ∧ (run s args).1.head? = some ("unknown option ".toList ++ args.headD []) := by
  simp only [List.mem_cons, List.not_mem_nil, or_false, not_or] at h
  obtain ⟨h1, h2, h3, h4, h5, h6, h7⟩ := h
  have hr : run s args = (["unknown option ".toList ++ args.headD [], usageLine], 1) :=
    (if_neg h1).trans ((if_neg h2).trans ((if_neg h3).trans ((if_neg h4).trans ((if_neg h5).trans ((if_neg h6).trans (if_neg h7))))))
  rw [hr]
  exact ⟨rfl, rfl⟩

/-- False: that asking for help succeeds; it exits as a wrong option does. -/
theorem help_false (s : Setup) (args : List Text) : (run s ("--help".toList :: args)).2 = 1 := rfl

/-! ### The hypotheses are met -/

example : Names ["boost".toList, "program-options".toList] ∧ (run (installed ['/'] ["boost".toList, "program-options".toList] ['1']) ["--has-feature".toList, "boost".toList]).2 = 0 := by
  refine ⟨?_, by decide +kernel⟩
  unfold Names
  decide

example : (run (installed ['/'] ["boost".toList] ['1']) ["--has-feature".toList]).2 = 1 := by decide +kernel

end Verif.Misc.LintelConfig
