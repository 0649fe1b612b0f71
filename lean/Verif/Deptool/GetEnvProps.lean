import Verif.Deptool.GetEnv

/-! # Properties of deptool getenv (C226) -/

namespace Verif.Deptool.GetEnv

open Verif.Deptool.Deps (Text)

/-! ## Specification: what a shell makes of the text

The part of the Bourne shell's grammar that matters: words, double quotes with backslashes in them, and `;` and newline between commands. Whatever else is special to a shell stops it (`bad`): nothing is said about that. -/

inductive Mode where
  | plain | quoted | escaped | bad
deriving DecidableEq

structure Sh where
  mode : Mode
  word : Option Text
  words : List Text
  cmds : List (List Text)
deriving DecidableEq

/-- The characters that mean something outside of quotes. -/
def special : List Char := "\\'$`&|<>()*?[]{}~#!".toList

def Sh.endWord (s : Sh) : List Text := s.words ++ s.word.toList

def Sh.endCmd (s : Sh) : List (List Text) := if s.endWord = [] then s.cmds else s.cmds ++ [s.endWord]

def Sh.add (s : Sh) (t : Text) : Option Text := some (s.word.getD [] ++ t)

def Sh.next (s : Sh) (c : Char) : Sh :=
  match s.mode with
  | .plain =>
    if c = ';' ∨ c = '\n' then ⟨.plain, none, [], s.endCmd⟩
    else if c = ' ' ∨ c = '\t' then ⟨.plain, none, s.endWord, s.cmds⟩
    else if c = '"' then ⟨.quoted, s.add [], s.words, s.cmds⟩
    else if c ∈ special then ⟨.bad, s.word, s.words, s.cmds⟩
    else ⟨.plain, s.add [c], s.words, s.cmds⟩
  | .quoted =>
    if c = '"' then ⟨.plain, s.word, s.words, s.cmds⟩
    else if c = '\\' then ⟨.escaped, s.word, s.words, s.cmds⟩
    else if c = '$' ∨ c = '`' then ⟨.bad, s.word, s.words, s.cmds⟩
    else ⟨.quoted, s.add [c], s.words, s.cmds⟩
  | .escaped =>
    if c = '\n' then ⟨.quoted, s.word, s.words, s.cmds⟩
    else if c = '"' ∨ c = '\\' ∨ c = '$' ∨ c = '`' then ⟨.quoted, s.add [c], s.words, s.cmds⟩
    else ⟨.quoted, s.add ['\\', c], s.words, s.cmds⟩
  | .bad => s

/-- The commands in a text. -/
def commands (t : Text) : Option (List (List Text)) :=
  let s := t.foldl Sh.next ⟨.plain, none, [], []⟩
  if s.mode = .plain then some s.endCmd else none

/-- What `export` and `unset` do to the variables; other commands are not looked at. -/
def exec (e : Env) (cmd : List Text) : Env :=
  match cmd with
  | [c, a] =>
    if c = "export".toList then fun x => if (x.name ++ ['=']).isPrefixOf a then some (a.drop (x.name.length + 1)) else e x
    else if c = "unset".toList then fun x => if x.name = a then none else e x
    else e
  | _ => e

/-- `eval` in the shell. -/
def eval (e : Env) (t : Text) : Option Env := (commands t).map (·.foldl exec e)

/-- A text that double quotes keep as it is. -/
def Plain (v : Text) : Prop := ∀ c ∈ v, c ≠ '"' ∧ c ≠ '\\' ∧ c ≠ '$' ∧ c ≠ '`'

/-! ## Lemmas -/

theorem quoted_fold (v : Text) (hv : Plain v) (t : Text) (ws : List Text) (cs : List (List Text)) :
    v.foldl Sh.next ⟨.quoted, some t, ws, cs⟩ = ⟨.quoted, some (t ++ v), ws, cs⟩ := by
  induction v generalizing t with
  | nil => simp
  | cons c v ih =>
    obtain ⟨h1, h2, h3, h4⟩ := hv c (by simp)
    have e : Sh.next ⟨.quoted, some t, ws, cs⟩ c = ⟨.quoted, some (t ++ [c]), ws, cs⟩ := by
      simp [Sh.next, h1, h2, h3, h4, Sh.add]
    rw [List.foldl_cons, e, ih (fun d hd => hv d (List.mem_cons_of_mem _ hd)) (t ++ [c])]
    simp

/-- A word that needs no quotes. -/
def Bare (v : Text) : Prop := ∀ c ∈ v, ¬(c = ';' ∨ c = '\n') ∧ ¬(c = ' ' ∨ c = '\t') ∧ c ≠ '"' ∧ c ∉ special

instance (v : Text) : Decidable (Bare v) := by unfold Bare; infer_instance

theorem bare_fold (v : Text) (hv : Bare v) (o : Option Text) (ws : List Text) (cs : List (List Text)) (hne : v ≠ []) :
    v.foldl Sh.next ⟨.plain, o, ws, cs⟩ = ⟨.plain, some (o.getD [] ++ v), ws, cs⟩ := by
  induction v generalizing o with
  | nil => exact absurd rfl hne
  | cons c v ih =>
    obtain ⟨h1, h2, h3, h4⟩ := hv c (by simp)
    have e : Sh.next ⟨.plain, o, ws, cs⟩ c = ⟨.plain, some (o.getD [] ++ [c]), ws, cs⟩ := by
      simp [Sh.next, h1, h2, h3, h4, Sh.add]
    rw [List.foldl_cons, e]
    by_cases hn : v = []
    · subst hn; rfl
    · rw [ih (fun d hd => hv d (List.mem_cons_of_mem _ hd)) _ hn]
      simp

theorem name_bare (x : Var) : Bare x.name := by cases x <;> decide

theorem name_ne (x : Var) : x.name ≠ [] := by cases x <;> decide

theorem name_eq_sign (x : Var) : '=' ∉ x.name := by cases x <;> decide

theorem start_fold (k a : Text) (hk : Bare k) (hk' : k ≠ []) (ha : Bare a) (ha' : a ≠ []) (cs : List (List Text)) :
    (k ++ ' ' :: a).foldl Sh.next ⟨.plain, none, [], cs⟩ = ⟨.plain, some a, [k], cs⟩ := by
  have hsp : Sh.next ⟨.plain, some k, [], cs⟩ ' ' = ⟨.plain, none, [k], cs⟩ := by simp [Sh.next, Sh.endWord]
  rw [List.foldl_append, bare_fold k hk none [] cs hk', List.foldl_cons, Option.getD_none, List.nil_append, hsp,
    bare_fold a ha none _ _ ha', Option.getD_none, List.nil_append]

theorem quote_fold (k a v : Text) (hk : Bare k) (hk' : k ≠ []) (ha : Bare a) (ha' : a ≠ []) (hv : Plain v) (cs : List (List Text)) :
    ((k ++ ' ' :: a) ++ '=' :: '"' :: (v ++ ['"', ';', '\n'])).foldl Sh.next ⟨.plain, none, [], cs⟩ =
      ⟨.plain, none, [], cs ++ [[k, a ++ '=' :: v]]⟩ := by
  have heq : Sh.next ⟨.plain, some a, [k], cs⟩ '=' = ⟨.plain, some (a ++ ['=']), [k], cs⟩ := by
    have : '=' ∉ special := by decide
    simp [Sh.next, Sh.add, this]
  have hq : Sh.next ⟨.plain, some (a ++ ['=']), [k], cs⟩ '"' = ⟨.quoted, some (a ++ ['=']), [k], cs⟩ := by simp [Sh.next, Sh.add]
  rw [List.foldl_append, start_fold k a hk hk' ha ha', List.foldl_cons, heq, List.foldl_cons, hq, List.foldl_append, quoted_fold v hv]
  simp [Sh.next, Sh.endCmd, Sh.endWord]

theorem line_fold (x : Var) (v : Text) (hv : Plain v) (cs : List (List Text)) :
    (line .sh x v).foldl Sh.next ⟨.plain, none, [], cs⟩ =
      ⟨.plain, none, [], cs ++ [[kExport, x.name ++ '=' :: v]]⟩ := by
  have e : line .sh x v = (kExport ++ ' ' :: x.name) ++ '=' :: '"' :: (v ++ ['"', ';', '\n']) := by
    simp [line]
  rw [e]
  exact quote_fold _ _ _ (by decide) (by decide) (name_bare x) (name_ne x) hv cs

theorem unset_fold (x : Var) (v : Text) (cs : List (List Text)) :
    (line .unsetSh x v).foldl Sh.next ⟨.plain, none, [], cs⟩ = ⟨.plain, none, [], cs ++ [[kUnset, x.name]]⟩ := by
  have e : line .unsetSh x v = (kUnset ++ ' ' :: x.name) ++ ['\n'] := by
    simp [line]
  rw [e, List.foldl_append, start_fold _ _ (by decide) (by decide) (name_bare x) (name_ne x)]
  simp [Sh.next, Sh.endCmd, Sh.endWord]

theorem lines_fold (f : Var → Text) : ∀ (xs : List Var), (∀ x ∈ xs, Plain (f x)) → ∀ cs,
    (xs.flatMap fun x => line .sh x (f x)).foldl Sh.next ⟨.plain, none, [], cs⟩ =
      ⟨.plain, none, [], cs ++ xs.map fun x => [kExport, x.name ++ '=' :: f x]⟩
  | [], _, cs => by simp
  | x :: xs, h, cs => by
    rw [List.flatMap_cons, List.foldl_append, line_fold x (f x) (h x (by simp)),
      lines_fold f xs (fun y hy => h y (List.mem_cons_of_mem _ hy))]
    simp

theorem unsets_fold (f : Var → Text) : ∀ (xs : List Var) cs,
    (xs.flatMap fun x => line .unsetSh x (f x)).foldl Sh.next ⟨.plain, none, [], cs⟩ =
      ⟨.plain, none, [], cs ++ xs.map fun x => [kUnset, x.name]⟩
  | [], cs => by simp
  | x :: xs, cs => by
    rw [List.flatMap_cons, List.foldl_append, unset_fold x, unsets_fold f xs]
    simp

theorem sign_prefix (v : Text) : ∀ (a b : Text), '=' ∉ a → '=' ∉ b → (a ++ ['=']).isPrefixOf (b ++ '=' :: v) = decide (a = b)
  | [], [], _, _ => by simp [List.isPrefixOf]
  | [], d :: b, _, hb => by
    have : d ≠ '=' := fun e => hb (by simp [e])
    simp [List.isPrefixOf, this.symm]
  | c :: a, [], ha, _ => by
    have : c ≠ '=' := fun e => ha (by simp [e])
    simp [List.isPrefixOf, this]
  | c :: a, d :: b, ha, hb => by
    have ih := sign_prefix v a b (fun e => ha (List.mem_cons_of_mem _ e)) (fun e => hb (List.mem_cons_of_mem _ e))
    simp only [List.cons_append, List.isPrefixOf, ih]
    by_cases h : c = d
    · subst h; simp
    · simp [h]

theorem name_inj (x y : Var) : x.name = y.name ↔ x = y := by
  constructor
  · intro h
    have h' : x.str = y.str := String.toList_inj.1 h
    revert h'
    cases x <;> cases y <;> simp [Var.str]
  · exact congrArg Var.name

theorem name_prefix (x y : Var) (v : Text) : (x.name ++ ['=']).isPrefixOf (y.name ++ '=' :: v) = decide (x = y) := by
  rw [sign_prefix v _ _ (name_eq_sign x) (name_eq_sign y)]
  simp only [name_inj]

theorem exec_export (e : Env) (y : Var) (v : Text) (x : Var) :
    exec e [kExport, y.name ++ '=' :: v] x = if x = y then some v else e x := by
  have : exec e [kExport, y.name ++ '=' :: v] x =
      if (x.name ++ ['=']).isPrefixOf (y.name ++ '=' :: v) then some ((y.name ++ '=' :: v).drop (x.name.length + 1)) else e x := rfl
  rw [this, name_prefix]
  by_cases h : x = y
  · subst h; simp
  · simp [h]

theorem exec_unset (e : Env) (y x : Var) : exec e [kUnset, y.name] x = if x = y then none else e x := by
  have : exec e [kUnset, y.name] x = if x.name = y.name then none else e x := by
    simp [exec, kUnset]
  rw [this]
  simp only [name_inj]

theorem exports_fold (f : Var → Text) : ∀ (xs : List Var) (e : Env) (x : Var),
    ((xs.map fun y => [kExport, y.name ++ '=' :: f y]).foldl exec e) x = if x ∈ xs then some (f x) else e x
  | [], e, x => by simp
  | y :: xs, e, x => by
    rw [List.map_cons, List.foldl_cons, exports_fold f xs, exec_export]
    by_cases h : x = y
    · subst h; simp
    · simp [h]

theorem unexports_fold : ∀ (xs : List Var) (e : Env) (x : Var),
    ((xs.map fun y => [kUnset, y.name]).foldl exec e) x = if x ∈ xs then none else e x
  | [], e, x => by simp
  | y :: xs, e, x => by
    rw [List.map_cons, List.foldl_cons, unexports_fold xs, exec_unset]
    by_cases h : x = y
    · subst h; simp
    · simp [h]

theorem setting_given (e : Env) (w : World) (x : Var) (hx : x ∈ vars) (v : Text) (h : e x = some v) : setting e w x = (v, []) := by
  cases x <;> simp [vars] at hx <;>
    simp [setting, projects, buildRoot, operatingSystem, unameM, debugTree, optTree, parallelism, mtnServer, gitServer, gitRepoDir, mtnRepoDir, h]

/-! ## Theorems -/

/-- C226: the values in a shell that has evaluated the output are those deptool used, the rest of the environment is as before. Missing: values with quotes, backslashes, dollars or backquotes; the C shell. -/
theorem getenv_eval_partial (e : Env) (w : World) (h : ∀ x ∈ vars, Plain (setting e w x).1) :
    ∃ e', eval e (script .sh e w) = some e' ∧ ∀ x, e' x = if x ∈ vars then some (setting e w x).1 else e x := by
  refine ⟨_, ?_, fun x => exports_fold (fun y => (setting e w y).1) vars e x⟩
  have := lines_fold (fun y => (setting e w y).1) vars h []
  simp only [eval, commands, script, this]
  simp [Sh.endCmd, Sh.endWord]

/-- C226: from then on deptool uses the same values in that shell whatever becomes of the machine, and asks nothing. -/
theorem getenv_stable_partial (e : Env) (w : World) (h : ∀ x ∈ vars, Plain (setting e w x).1) (e' : Env)
    (he : eval e (script .sh e w) = some e') (w' : World) (x : Var) (hx : x ∈ vars) : setting e' w' x = ((setting e w x).1, []) := by
  obtain ⟨e'', h1, h2⟩ := getenv_eval_partial e w h
  obtain rfl := Option.some.inj (he.symm.trans h1)
  exact setting_given e' w' x hx _ (by rw [h2 x, if_pos hx])

/-- C226: after `--unset` none of the variables is there, not even those that were set before; the rest is as before. This holds for all values, for they are not printed. -/
theorem getenv_unset (e : Env) (w : World) :
    ∃ e', eval e (script .unsetSh e w) = some e' ∧ ∀ x, e' x = if x ∈ vars then none else e x := by
  refine ⟨_, ?_, fun x => unexports_fold vars e x⟩
  have := unsets_fold (fun y => (setting e w y).1) vars []
  simp only [eval, commands, script, this]
  simp [Sh.endCmd, Sh.endWord]

/-- C226: a variable that is set, even to nothing, is taken as it is and nothing is asked. -/
theorem getenv_given (e : Env) (w : World) (x : Var) (hx : x ∈ vars) (v : Text) (h : e x = some v) : setting e w x = (v, []) :=
  setting_given e w x hx v h

/-- C226: when neither tree is given, neither lies in the other, and the machine's parts of their names are in both. -/
theorem getenv_trees (e : Env) (w : World) (h1 : e .buildDebug = none) (h2 : e .buildOpt = none) :
    ¬ (debugTree e w).1 <+: (optTree e w).1 ∧ ¬ (optTree e w).1 <+: (debugTree e w).1 ∧
      (buildRoot e).1 <+: (debugTree e w).1 ∧ (buildRoot e).1 <+: (optTree e w).1 := by
  have hd : ∃ a, (debugTree e w).1 = (buildRoot e).1 ++ '/' :: 'd' :: a := by
    simp only [debugTree, h1]
    split
    · exact ⟨"ebug".toList, rfl⟩
    · exact ⟨_, rfl⟩
  have ho : ∃ a, (optTree e w).1 = (buildRoot e).1 ++ '/' :: 'o' :: a := by
    simp only [optTree, h2]
    split
    · exact ⟨"ptimize".toList, rfl⟩
    · exact ⟨_, rfl⟩
  obtain ⟨a, ha⟩ := hd
  obtain ⟨b, hb⟩ := ho
  rw [ha, hb]
  refine ⟨?_, ?_, List.prefix_append _ _, List.prefix_append _ _⟩
  · rw [List.prefix_append_right_inj]
    simp
  · rw [List.prefix_append_right_inj]
    simp

/-- C226: the defaults. -/
theorem getenv_defaults (e : Env) (w : World) :
    (e .projects = none → setting e w .projects = ((e .home).getD [] ++ "/projects".toList, [.projects])) ∧
    (e .buildRoot = none → setting e w .buildRoot = ((e .home).getD [] ++ "/build".toList, [.buildRoot])) ∧
    (e .buildDebug = none → e .buildRoot = none → w.isDir ((e .home).getD [] ++ "/build/debug".toList) = true →
      setting e w .buildDebug = ((e .home).getD [] ++ "/build/debug".toList, [.buildRoot, .buildDebug])) ∧
    (∀ r o m, e .buildDebug = none → e .buildRoot = some r → e .buildOs = some o → e .unameM = some m → w.isDir (r ++ "/debug".toList) = false →
      setting e w .buildDebug = (r ++ "/dbg-".toList ++ o ++ '-' :: m, [.buildDebug])) ∧
    (∀ r o m, e .buildOpt = none → e .buildRoot = some r → e .buildOs = some o → e .unameM = some m → w.isDir (r ++ "/optimize".toList) = false →
      setting e w .buildOpt = (r ++ "/opt-".toList ++ o ++ '-' :: m, [.buildOpt])) ∧
    (∀ r, e .buildOpt = none → e .buildRoot = some r → w.isDir (r ++ "/optimize".toList) = true →
      setting e w .buildOpt = (r ++ "/optimize".toList, [.buildOpt])) ∧
    (e .mtnRepoDir = none → e .monotoneDir = none → setting e w .mtnRepoDir = ((e .home).getD [] ++ "/.monotone".toList, [.mtnRepoDir])) ∧
    (∀ d, e .mtnRepoDir = none → e .monotoneDir = some d → setting e w .mtnRepoDir = (d, [])) ∧
    (e .gitRepoDir = none → setting e w .gitRepoDir = ((e .home).getD [] ++ "/.git".toList, [.gitRepoDir])) ∧
    (e .buildOs = none → setting e w .buildOs = (w.os, [])) ∧
    (e .unameM = none → (setting e w .unameM).1 ≠ [] ∧ (w.machine ≠ [] → (setting e w .unameM).1 = w.machine)) := by
  refine ⟨?_, ?_, ?_, ?_, ?_, ?_, ?_, ?_, ?_, ?_, ?_⟩
  · intro h; simp [setting, projects, h, home]
  · intro h; simp [setting, buildRoot, h, home]
  · intro h1 h2 h3
    have : w.isDir ((buildRoot e).1 ++ "/debug".toList) = true := by
      rw [← h3]; simp [buildRoot, h2, home]
    simp only [setting, debugTree, h1, this]
    simp [buildRoot, h2, home]
  · intro r o m h1 h2 h3 h4 h5
    have : w.isDir ((buildRoot e).1 ++ "/debug".toList) = false := by rw [← h5]; simp [buildRoot, h2]
    simp only [setting, debugTree, h1, this]
    simp [buildRoot, h2, platform, operatingSystem, h3, unameM, h4]
  · intro r o m h1 h2 h3 h4 h5
    have : w.isDir ((buildRoot e).1 ++ "/optimize".toList) = false := by rw [← h5]; simp [buildRoot, h2]
    simp only [setting, optTree, h1, this]
    simp [buildRoot, h2, platform, operatingSystem, h3, unameM, h4]
  · intro r h1 h2 h3
    have : w.isDir ((buildRoot e).1 ++ "/optimize".toList) = true := by rw [← h3]; simp [buildRoot, h2]
    simp only [setting, optTree, h1, this]
    simp [buildRoot, h2]
  · intro h1 h2; simp [setting, mtnRepoDir, h1, h2, home]
  · intro d h1 h2; simp [setting, mtnRepoDir, h1, h2]
  · intro h; simp [setting, gitRepoDir, h, home]
  · intro h; simp [setting, operatingSystem, h]
  · intro h
    constructor
    · simp only [setting, unameM, h]
      split
      · simp
      · assumption
    · intro hm; simp [setting, unameM, h, hm]

/-- C226: half as many jobs again as there are processors, rounded up, and never none. -/
theorem getenv_jobs (w : World) : 1 ≤ jobs w ∧ (0 < w.cpuinfo → 3 * w.cpuinfo ≤ 2 * jobs w ∧ 2 * jobs w ≤ 3 * w.cpuinfo + 1) ∧
    (w.cpuinfo = 0 → 0 < w.ncpu → 3 * w.ncpu ≤ 2 * jobs w ∧ 2 * jobs w ≤ 3 * w.ncpu + 1) := by
  unfold jobs processors
  refine ⟨?_, ?_, ?_⟩
  · generalize (if w.cpuinfo = 0 then w.ncpu else w.cpuinfo) = n
    split <;> omega
  · intro h
    have e : (if w.cpuinfo = 0 then w.ncpu else w.cpuinfo) = w.cpuinfo := if_neg (by omega)
    rw [e, if_neg (by omega)]; omega
  · intro h h'
    have e : (if w.cpuinfo = 0 then w.ncpu else w.cpuinfo) = w.ncpu := if_pos h
    rw [e, if_neg (by omega)]; omega

/-- An environment with only `PROJECTS` in it. -/
def envP (v : Text) : Env := fun x => if x = .projects then some v else none

def worldP : World := ⟨fun _ => false, "debian-6.0".toList, "x86_64".toList, 3, 0⟩

example : ∃ e', eval (envP "/p".toList) (script .sh (envP "/p".toList) worldP) = some e' ∧ e' .buildDebug = some "/build/dbg-debian-6.0-x86_64".toList ∧
    e' .parallelism = some "5".toList := by
  obtain ⟨e', h1, h2⟩ := getenv_eval_partial (envP "/p".toList) worldP (by
    intro x hx
    simp only [vars, List.mem_cons, List.not_mem_nil, or_false] at hx
    rcases hx with rfl | rfl | rfl | rfl | rfl | rfl | rfl | rfl | rfl | rfl | rfl <;> unfold Plain <;> decide)
  exact ⟨e', h1, h2 _, h2 _⟩

example : ¬ (debugTree (envP []) worldP).1 <+: (optTree (envP []) worldP).1 := (getenv_trees (envP []) worldP rfl rfl).1

example : setting (envP []) worldP .projects = ([], []) := getenv_given _ _ _ (by decide) _ rfl

example : jobs worldP = 5 := rfl

/-- C226 is false of values with quotes or dollars: with `PROJECTS` set to `a";rm b;"` the shell runs `rm b`, and the variable that it then has is another one. -/
theorem getenv_quote_false :
    commands (line .sh .projects "a\";rm b;\"".toList) = some [["export".toList, "PROJECTS=a".toList], ["rm".toList, "b".toList], [[]]] ∧
    commands (line .sh .projects "a\\".toList) = none ∧ commands (line .sh .projects "$x".toList) = none := by decide

end Verif.Deptool.GetEnv
