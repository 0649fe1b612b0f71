import Verif.Deptool.CMake
import Verif.Deptool.DepsProps

/-! # C207: deptool cmake -/

namespace Verif.Deptool.CMake

open Verif.Deptool.Deps (Text isWord word cutLast takeWhile_comp cutLast_append word_no)

/-! ## The specification -/

/-- The end of the name of a build directory. -/
def dash : Option Text → Text
  | some t => '-' :: t
  | none => []

/-- The build directory of a project for a type, and what is below it. -/
def buildPath (tree p : Text) (t : Option Text) (s : Text) : Text :=
  tree ++ '/' :: (p ++ dash t ++ s)

/-- A type: letters, digits, underscores. -/
def TypeName (t : Text) : Prop := t ≠ [] ∧ ∀ c ∈ t, c.isAlphanum = true ∨ c = '_'

/-- A project's name. -/
structure ProjectName (p : Text) : Prop where
  first : ∃ c r, p = c :: r ∧ (c.isAlphanum = true ∨ c = '_')
  slash : '/' ∉ p

/-- A directory below: nothing, or a slash and more. -/
def Sub (s : Text) : Prop := s = [] ∨ ∃ r, s = '/' :: r

/-- What the documentation says about the type of a build. -/
def Fits (T : Trees) (tree kind : Text) : Prop := (tree = T.opt ∧ kind = "RelWithDebInfo".toList) ∨ (tree = T.debug ∧ kind = "Debug".toList)

/-- The command that the documentation describes. -/
def Command (tree kind : Text) (t : Option Text) (args flags : List Text) (src : Text) : List Text :=
  ["cmake".toList, "-D".toList, "CMAKE_INSTALL_PREFIX=".toList ++ tree, "-D".toList, "CMAKE_BUILD_TYPE=".toList ++ kind] ++
    (match t with | some t => ["-D".toList, "BUILD_SUBDIR=".toList ++ t] | none => []) ++ args ++ flags ++ [src]

/-! ## Proofs -/

theorem strip_append (b r : Text) : strip b (b ++ '/' :: r) = some r := by
  unfold strip
  rw [if_pos]
  · rw [List.drop_append]; simp
  · rw [List.isPrefixOf_iff_prefix]; exact ⟨r, by simp⟩

theorem word_of {t : Text} (h : TypeName t) : word t = true := by
  unfold word
  simp only [Bool.and_eq_true, List.all_eq_true]
  refine ⟨?_, fun c hc => ?_⟩
  · cases t with
    | nil => exact absurd rfl h.1
    | cons => rfl
  · unfold isWord
    rcases h.2 c hc with h | h <;> simp [h]

theorem typed_append {p t : Text} (hp : ProjectName p) (ht : TypeName t) : typed (p ++ '-' :: t) = some (p, t) := by
  unfold typed
  rw [cutLast_append '-' p t (word_no '-' (by decide) t (word_of ht))]
  obtain ⟨c, r, rfl, hc⟩ := hp.first
  have : isWord c = true := by unfold isWord; rcases hc with h | h <;> simp [h]
  simp [this, word_of ht]

theorem fromBuild_plain (pr : Text) (isDir : Text → Bool) (r : Text) (h : isDir (pr ++ '/' :: r) = true) : fromBuild pr isDir r = some (pr ++ '/' :: r, none) := by
  unfold fromBuild; rw [if_pos h]

theorem fromBuild_typed (pr : Text) (isDir : Text → Bool) (p t s : Text) (hp : ProjectName p) (ht : TypeName t) (hs : Sub s)
    (hno : isDir (pr ++ '/' :: (p ++ '-' :: t ++ s)) = false) (h : isDir (pr ++ '/' :: (p ++ s)) = true) :
    fromBuild pr isDir (p ++ '-' :: t ++ s) = some (pr ++ '/' :: (p ++ s), some t) := by
  have hsl : '/' ∉ p ++ '-' :: t := by
    simp only [List.mem_append, List.mem_cons, not_or]
    exact ⟨hp.slash, by decide, word_no '/' (by decide) t (word_of ht)⟩
  have k := takeWhile_comp (p ++ '-' :: t) s hsl hs
  unfold fromBuild
  rw [if_neg (by rw [hno]; decide), k.1, k.2, typed_append hp ht]
  simp only
  rw [if_pos h]

/-- What is on the disk: the source of the project, with its configuration; and, for a variant, no other project with the name of the variant's directory. -/
structure OnDisk (T : Trees) (w : Place) (p : Text) (t : Option Text) (s : Text) : Prop where
  dir : w.isDir (buildPath T.projects p none s) = true
  config : w.isFile (buildPath T.projects p none s ++ "/deptool.config".toList) = true
  other : t ≠ none → w.isDir (buildPath T.projects p t s) = false

/-- C207: in the build directory of a project for a type, in one of the two build trees, cmake is run for the source of the project with the type of build of the tree, the tree as the place to install, and the variant. Not covered: the cases below. -/
theorem cmake_partial (T : Trees) (w : Place) (cwd : List Text) (fs : List Node) (tree kind p s : Text) (t : Option Text) (args flags : List Text) (hf : Fits T tree kind) (hp : ProjectName p)
    (ht : ∀ x, t = some x → TypeName x) (hs : Sub s) (hcwd : w.cwd = buildPath tree p t s) (hd : OnDisk T w p t s)
    (hsrc : ¬ (T.projects ++ ['/']) <+: w.cwd) (hm : w.mtn = false) (hdebug : tree = T.opt → ¬ T.debug <+: w.cwd) (ha : args.head? ≠ some "clean".toList) :
    runCMake T w cwd fs flags false args = .ran (Command tree kind t args flags (buildPath T.projects p none s)) := by
  have hsrcDir : srcDir T w = some (buildPath T.projects p none s, t) := by
    unfold srcDir
    rw [if_neg (by unfold strip; rw [if_neg (by rw [List.isPrefixOf_iff_prefix]; exact hsrc)]; decide), hm, if_neg (by decide)]
    have hfrom : fromBuild T.projects w.isDir (p ++ dash t ++ s) = some (buildPath T.projects p none s, t) := by
      cases t with
      | none =>
        have := hd.dir
        simp only [buildPath, dash, List.append_nil] at this ⊢
        exact fromBuild_plain _ _ _ this
      | some t =>
        have h1 := hd.dir
        have h2 := hd.other (by simp)
        simp only [buildPath, dash, List.append_nil] at h1 h2 ⊢
        exact fromBuild_typed _ _ p t s hp (ht t rfl) hs h2 h1
    rcases hf with ⟨rfl, _⟩ | ⟨rfl, _⟩
    · have : strip T.debug w.cwd = none := by
        unfold strip
        rw [if_neg]
        rw [List.isPrefixOf_iff_prefix]
        intro h
        exact hdebug rfl (List.IsPrefix.trans ⟨['/'], rfl⟩ h)
      rw [this, hcwd, show strip T.opt (buildPath T.opt p t s) = _ from strip_append _ _]
      exact hfrom
    · rw [hcwd, show strip T.debug (buildPath T.debug p t s) = _ from strip_append _ _]
      exact hfrom
  have hkind : CMake.kind T w.cwd = some (tree, kind) := by
    unfold CMake.kind
    have hpre : ∀ b : Text, b = tree → b.isPrefixOf w.cwd = true := by
      rintro b rfl
      rw [List.isPrefixOf_iff_prefix, hcwd]
      exact ⟨_, rfl⟩
    rcases hf with ⟨h, rfl⟩ | ⟨h, rfl⟩
    · rw [if_neg (by rw [List.isPrefixOf_iff_prefix]; exact hdebug h), if_pos (hpre _ h.symm), h]; rfl
    · rw [if_pos (hpre _ h.symm), h]; rfl
  have hc : config T w flags args = some (Command tree kind t args flags (buildPath T.projects p none s)) := by
    unfold config
    rw [hsrcDir]
    simp only [hkind]
    rw [if_pos (show w.isFile (buildPath T.projects p none s ++ tConfig) = true from hd.config)]
    rfl
  unfold runCMake
  rw [if_neg (by decide)]
  cases args with
  | nil => simp only [hc]
  | cons a rest =>
    have : a ≠ tClean := by
      intro h
      apply ha
      rw [h]; rfl
    simp only [if_neg this, hc]

/-- A variant in the optimised tree. -/
example : runCMake ⟨['/', 'p'], ['/', 'o'], ['/', 'd']⟩ ⟨['/', 'o', '/', 'x', '-', 't'], fun d => decide (d = ['/', 'p', '/', 'x']), fun f => decide (f = ['/', 'p', '/', 'x'] ++ "/deptool.config".toList), false⟩ [] [] [] false [] =
    .ran (Command ['/', 'o'] "RelWithDebInfo".toList (some ['t']) [] [] ['/', 'p', '/', 'x']) := by decide +kernel

/-- C207, false of the code: the name of the tree is compared without the slash; if the name of the optimised tree begins with that of the other, all its builds are set up as debugging builds to be installed in the other. -/
theorem cmake_prefix_false : ∃ (T : Trees) (w : Place) (p : Text), ProjectName p ∧ w.cwd = buildPath T.opt p none [] ∧ OnDisk T w p none [] ∧ ¬ (T.debug ++ ['/']) <+: w.cwd ∧
    runCMake T w [] [] [] false [] = .ran (Command T.debug "Debug".toList none [] [] (buildPath T.projects p none [])) := by
  refine ⟨⟨['/', 'p'], ['/', 'b', '2'], ['/', 'b']⟩, ⟨['/', 'b', '2', '/', 'x'], fun _ => true, fun _ => true, false⟩, ['x'], ⟨⟨'x', [], rfl, by decide⟩, by decide⟩, rfl, ⟨rfl, rfl, fun h => absurd rfl h⟩, ?_, by decide +kernel⟩
  rw [← List.isPrefixOf_iff_prefix]; decide

/-- C207, false of the code: `deptool cmake --clean` cleans nothing, wherever it is run. -/
theorem cmake_clean_false (T : Trees) (w : Place) (cwd : List Text) (fs : List Node) (flags : List Text) : runCMake T w cwd fs flags true [] = .nothing := rfl

/-! ## clean -/

/-- Names of files that are taken for cmake's. -/
def Generated (n : Text) : Prop := n = "Makefile".toList ∨ ∃ c, n = "CMakeCache".toList ++ c :: "txt".toList

/-- What clean is to remove. -/
def Removed (cwd : List Text) (x : Node) : Prop :=
  ∃ r n, x.path = cwd ++ r ++ [n] ∧ (Generated n ∨ "CMakeFiles".toList ∈ r ++ [n])

/-- Every directory that something is in is there. -/
def Tree (fs : List Node) : Prop := ∀ x ∈ fs, ∀ a b : List Text, x.path = a ++ b → b ≠ [] → ∃ d ∈ fs, d.path = a

theorem isCache_iff (n : Text) : isCache n = true ↔ ∃ c, n = "CMakeCache".toList ++ c :: "txt".toList := by
  show isCache n = true ↔ ∃ c, n = nCache ++ c :: nTxt
  simp only [isCache, Bool.and_eq_true, decide_eq_true_eq, List.isPrefixOf_iff_prefix, List.isSuffixOf_iff_suffix]
  constructor
  · rintro ⟨⟨hl, ⟨r, rfl⟩⟩, ⟨q, hq⟩⟩
    have h1 : r.length = 4 := by simp [nCache] at hl; omega
    match r, h1 with
    | [a, b, c, d], _ =>
      refine ⟨a, ?_⟩
      have h3 : (nCache ++ [a, b, c, d]).drop 11 = [b, c, d] := rfl
      have h4 : q.length = 11 := by
        have := congrArg List.length hq
        simp [nCache, nTxt] at this; omega
      have h5 : (q ++ nTxt).drop 11 = nTxt := by rw [List.drop_append]; simp [h4]
      rw [← hq, h5] at h3
      rw [← h3]
  · rintro ⟨c, rfl⟩
    exact ⟨⟨rfl, ⟨c :: nTxt, rfl⟩⟩, ⟨nCache ++ [c], by simp⟩⟩

theorem lastIs_iff (p : Text → Bool) (cwd : List Text) (x : Node) : lastIs p cwd x = true ↔ ∃ r n, x.path = cwd ++ r ++ [n] ∧ p n = true := by
  unfold lastIs below
  constructor
  · intro h
    split at h
    · rename_i r hr
      split at hr
      · rename_i hc
        obtain rfl := Option.some.inj hr
        rw [List.isPrefixOf_iff_prefix] at hc
        obtain ⟨⟨q, hq⟩, hl⟩ := hc
        rw [← hq] at h
        rw [List.drop_left] at h
        split at h
        · rename_i n hn
          obtain ⟨r, rfl⟩ := List.getLast?_eq_some_iff.mp hn
          exact ⟨r, n, by rw [← hq]; simp, h⟩
        · cases h
      · cases hr
    · cases h
  · rintro ⟨r, n, hp, hn⟩
    rw [hp]
    rw [if_pos (by
      rw [List.isPrefixOf_iff_prefix]
      exact ⟨⟨r ++ [n], by simp⟩, by simp⟩)]
    simp [List.append_assoc, hn]

theorem inFiles_iff (cwd : List Text) (x : Node) : inFiles cwd x = true ↔ ∃ r n, x.path = cwd ++ r ++ [n] ∧ Generated n := by
  unfold inFiles
  rw [lastIs_iff]
  constructor
  · rintro ⟨r, n, hp, hn⟩
    refine ⟨r, n, hp, ?_⟩
    simp only [Bool.or_eq_true] at hn
    rcases hn with hn | hn
    · exact .inr ((isCache_iff n).mp hn)
    · exact .inl (of_decide_eq_true hn)
  · rintro ⟨r, n, hp, hn⟩
    refine ⟨r, n, hp, ?_⟩
    simp only [Bool.or_eq_true]
    rcases hn with hn | hn
    · exact .inr (decide_eq_true hn)
    · exact .inl ((isCache_iff n).mpr hn)

theorem inDirs_iff (cwd : List Text) (x : Node) : inDirs cwd x = true ↔ ∃ r, x.path = cwd ++ r ++ ["CMakeFiles".toList] := by
  unfold inDirs
  rw [lastIs_iff]
  constructor
  · rintro ⟨r, n, hp, hn⟩
    have : n = "CMakeFiles".toList := of_decide_eq_true hn
    exact ⟨r, by rw [hp, this]⟩
  · rintro ⟨r, hp⟩
    exact ⟨r, _, hp, decide_eq_true rfl⟩

/-- A directory that is in a build tree or in the source tree. -/
def InTrees (T : Trees) (cwd : List Text) : Prop := (T.projects ++ ['/']) <+: pathText cwd ∨ (T.debug ++ ['/']) <+: pathText cwd ∨ (T.opt ++ ['/']) <+: pathText cwd

theorem strip_isSome (b d : Text) : (strip b d).isSome = true ↔ (b ++ ['/']) <+: d := by
  unfold strip
  rw [← List.isPrefixOf_iff_prefix]
  split <;> simp_all

theorem mayClean_iff (T : Trees) (cwd : List Text) : mayClean T (pathText cwd) = true ↔ InTrees T cwd := by
  simp only [mayClean, Bool.or_eq_true, strip_isSome, InTrees, or_assoc]

/-- C207: `deptool cmake clean` in the source tree or a build tree removes, below the current directory, the files with cmake's names and the directories CMakeFiles with everything in them, and nothing else, here or elsewhere; in other places it removes nothing. Directories with the names of the files are not covered. -/
theorem clean_partial (T : Trees) (w : Place) (cwd : List Text) (fs : List Node) (flags : List Text) (hw : Tree fs) (hd : ∀ x ∈ fs, x.dir = true → ∀ r n, x.path = cwd ++ r ++ [n] → ¬ Generated n) :
    (InTrees T cwd → ∃ left, runCMake T w cwd fs flags false ["clean".toList] = .cleaned left ∧ ∀ x, x ∈ left ↔ x ∈ fs ∧ ¬ Removed cwd x) ∧
    (¬ InTrees T cwd → runCMake T w cwd fs flags false ["clean".toList] = .died) := by
  have hrun : runCMake T w cwd fs flags false ["clean".toList] = runClean T cwd fs := rfl
  rw [hrun]
  unfold runClean
  refine ⟨fun h => ?_, fun h => by rw [if_neg (by rw [mayClean_iff]; exact h)]⟩
  rw [if_pos ((mayClean_iff T cwd).mpr h)]
  have hany : fs.any (fun x => inFiles cwd x && x.dir) = false := by
    rw [List.any_eq_false]
    intro x hx h
    simp only [Bool.and_eq_true] at h
    obtain ⟨r, n, hp, hn⟩ := (inFiles_iff cwd x).mp h.1
    exact hd x hx h.2 r n hp hn
  have hc : clean cwd fs = ((fs.filter fun x => !(inFiles cwd x && !x.dir)).filter fun x => !(fs.any fun d => inDirs cwd d && d.path.isPrefixOf x.path), true) := by
    simp only [clean, hany]
    rfl
  rw [hc]
  refine ⟨_, rfl, fun x => ?_⟩
  simp only [List.mem_filter, Bool.not_eq_true', Bool.and_eq_false_iff, List.any_eq_false, Bool.and_eq_true, List.isPrefixOf_iff_prefix, and_assoc]
  refine and_congr_right fun hx => ?_
  constructor
  · rintro ⟨h1, h2⟩ ⟨r, n, hp, hg⟩
    rcases hg with hg | hg
    · have hf := (inFiles_iff cwd x).mpr ⟨r, n, hp, hg⟩
      rcases h1 with h1 | h1
      · rw [hf] at h1; cases h1
      · exact hd x hx (by simpa using h1) r n hp hg
    · obtain ⟨a, b, hab⟩ := List.append_of_mem hg
      have hpath : x.path = (cwd ++ a ++ ["CMakeFiles".toList]) ++ b := by
        rw [hp, List.append_assoc, hab]; simp only [List.append_assoc, List.cons_append, List.nil_append]
      by_cases hb : b = []
      · exact h2 x hx ⟨(inDirs_iff cwd x).mpr ⟨a, by rw [hpath, hb]; exact List.append_nil _⟩, List.prefix_refl _⟩
      · obtain ⟨d, hdm, hdp⟩ := hw x hx _ _ hpath hb
        exact h2 d hdm ⟨(inDirs_iff cwd d).mpr ⟨a, hdp⟩, by rw [hdp, hpath]; exact ⟨b, rfl⟩⟩
  · intro h
    constructor
    · by_cases hf : inFiles cwd x = true
      · obtain ⟨r, n, hp, hn⟩ := (inFiles_iff cwd x).mp hf
        exact absurd ⟨r, n, hp, .inl hn⟩ h
      · exact .inl (by simpa using hf)
    · rintro d hdm ⟨h1, b, hb⟩
      obtain ⟨r, hp⟩ := (inDirs_iff cwd d).mp h1
      apply h
      rw [hp] at hb
      rcases List.eq_nil_or_concat b with rfl | ⟨b', n, rfl⟩
      · exact ⟨r, _, by rw [← hb, List.append_nil], .inr (List.mem_append_right _ (List.mem_singleton.mpr rfl))⟩
      · exact ⟨r ++ ["CMakeFiles".toList] ++ b', n, by rw [← hb]; simp only [List.concat_eq_append, List.append_assoc], .inr (by simp only [List.mem_append, List.mem_singleton]; exact .inl (.inl (.inr trivial)))⟩

/-- In a build directory. -/
example : let n : String → Text := String.toList; let d : List Text := [n "o", n "x"]
    runCMake ⟨n "/p", n "/o", n "/d"⟩ ⟨[], fun _ => false, fun _ => false, false⟩ d
      [⟨[n "o"], true⟩, ⟨d, true⟩, ⟨d ++ [n "Makefile"], false⟩, ⟨d ++ [n "CMakeFiles"], true⟩, ⟨d ++ [n "CMakeFiles", n "a"], false⟩, ⟨d ++ [n "b.o"], false⟩, ⟨[n "o", n "Makefile"], false⟩] [] false [n "clean"] =
    .cleaned [⟨[n "o"], true⟩, ⟨d, true⟩, ⟨d ++ [n "b.o"], false⟩, ⟨[n "o", n "Makefile"], false⟩] := by decide +kernel

/-- C207: clean does not know whether cmake made a file: a Makefile of the sources is removed, too. -/
theorem clean_source_false : ∃ (T : Trees) (w : Place) (cwd : List Text) (x : Node), (T.projects ++ ['/']) <+: pathText cwd ∧ x.path = cwd ++ ["Makefile".toList] ∧
    runCMake T w cwd [x] [] false ["clean".toList] = .cleaned [] := by
  refine ⟨⟨['/', 'p'], ['/', 'o'], ['/', 'd']⟩, ⟨[], fun _ => false, fun _ => false, false⟩, [['p'], ['x']], ⟨[['p'], ['x'], "Makefile".toList], false⟩, ⟨['x'], rfl⟩, rfl, by decide +kernel⟩

end Verif.Deptool.CMake
