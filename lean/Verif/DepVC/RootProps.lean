import Verif.DepVC.Root

/-!
# The top of a source tree (C221)
-/

namespace Verif.DepVC.Root

open Verif.Deptool.Deps (Text)
open Verif.Deptool.CMake (Trees Place srcDir tConfig)

/-- An absolute path, from its names. -/
def path : List Text → Text
  | [] => []
  | c :: cs => '/' :: (c ++ path cs)

/-- A name of a file or directory. -/
def Name (c : Text) : Prop := c ≠ [] ∧ '/' ∉ c

/-- A directory with a file deptool.config in it. -/
def Top (w : Place) (cs : List Text) : Prop := w.isFile (path cs ++ "/deptool.config".toList) = true

theorem path_append (as bs : List Text) : path (as ++ bs) = path as ++ path bs := by
  induction as with
  | nil => rfl
  | cons a as ih => simp [path, ih]

theorem span_last (s r : List Char) (hs : '/' ∉ s) : (s ++ '/' :: r).takeWhile (· ≠ '/') = s ∧ (s ++ '/' :: r).dropWhile (· ≠ '/') = '/' :: r := by
  induction s with
  | nil => simp
  | cons c s ih =>
    have hc : c ≠ '/' := fun e => hs (by simp [e])
    have := ih (fun h => hs (List.mem_cons_of_mem _ h))
    simp only [List.cons_append, List.takeWhile_cons, List.dropWhile_cons, hc, ne_eq, not_false_eq_true, decide_true, if_true]
    exact ⟨by rw [this.1], this.2⟩

/-- One round drops one name. -/
theorem up_path (cs : List Text) {c : Text} (hc : Name c) : up (path (cs ++ [c])) = path cs := by
  have h := span_last c.reverse (path cs).reverse (by simpa using hc.2)
  have e : (path (cs ++ [c])).reverse = c.reverse ++ '/' :: (path cs).reverse := by simp [path_append, path]
  unfold up
  rw [e, h.1, h.2]
  have : c.reverse ≠ [] := by simpa using hc.1
  split
  · rename_i h1; cases h1; simp
  · rename_i h1
    cases hr : c.reverse with
    | nil => exact absurd hr this
    | cons a b => exact absurd rfl (h1 a b '/' _ hr)

theorem path_ne {cs : List Text} (h : cs ≠ []) : path cs ≠ [] := by
  cases cs with
  | nil => exact absurd rfl h
  | cons => simp [path]

theorem loop_found (w : Place) (cs ds : List Text) (hd : ∀ d ∈ ds, Name d) (hne : cs ≠ []) (ht : Top w cs)
    (hno : ∀ k, 0 < k → k ≤ ds.length → ¬ Top w (cs ++ ds.take k)) : ∀ n, ds.length < n → loop w.isFile n (path (cs ++ ds)) = .found (path cs) := by
  generalize hl : ds.length = l
  induction l generalizing ds with
  | zero =>
    intro n hn
    obtain rfl := List.length_eq_zero_iff.mp hl
    cases n with
    | zero => omega
    | succ n => rw [List.append_nil, loop, if_pos (show w.isFile (path cs ++ tConfig) = true from ht)]
  | succ l ih =>
    intro n hn
    cases n with
    | zero => omega
    | succ n =>
      have hx : ds ≠ [] := by intro e; simp [e] at hl
      have hsp : ds = ds.dropLast ++ [ds.getLast hx] := (List.dropLast_concat_getLast hx).symm
      have hlen : ds.dropLast.length = l := by simp [hl]
      have hf := hno ds.length (by omega) (Nat.le_refl _)
      rw [List.take_length] at hf
      rw [loop, if_neg (show ¬ w.isFile (path (cs ++ ds) ++ tConfig) = true from hf)]
      have hu : up (path (cs ++ ds)) = path (cs ++ ds.dropLast) := by
        conv => lhs; rw [hsp, ← List.append_assoc]
        exact up_path _ (hd _ (List.getLast_mem hx))
      rw [hu, if_neg (path_ne (by simp [hne]))]
      refine ih ds.dropLast (fun d h => hd d (List.dropLast_subset _ h)) (fun k h1 h2 => ?_) hlen n (by omega)
      have := hno k h1 (by omega)
      rwa [show ds.dropLast.take k = ds.take k by rw [List.dropLast_eq_take, List.take_take]; congr 1; omega]

theorem loop_die (w : Place) (ds : List Text) (hd : ∀ d ∈ ds, Name d) (hne : ds ≠ [])
    (hno : ∀ k, 0 < k → k ≤ ds.length → ¬ Top w (ds.take k)) : ∀ n, ds.length ≤ n → loop w.isFile n (path ds) = .die := by
  generalize hl : ds.length = l
  induction l generalizing ds with
  | zero => exact absurd (List.length_eq_zero_iff.mp hl) hne
  | succ l ih =>
    intro n hn
    cases n with
    | zero => omega
    | succ n =>
      have hsp : ds = ds.dropLast ++ [ds.getLast hne] := (List.dropLast_concat_getLast hne).symm
      have hlen : ds.dropLast.length = l := by simp [hl]
      have hf := hno ds.length (by omega) (Nat.le_refl _)
      rw [List.take_length] at hf
      rw [loop, if_neg (show ¬ w.isFile (path ds ++ tConfig) = true from hf)]
      have hu : up (path ds) = path ds.dropLast := by
        conv => lhs; rw [hsp]
        exact up_path _ (hd _ (List.getLast_mem hne))
      rw [hu]
      by_cases h0 : ds.dropLast = []
      · rw [if_pos (by rw [h0]; rfl)]
      · rw [if_neg (path_ne h0)]
        refine ih ds.dropLast (fun d h => hd d (List.dropLast_subset _ h)) h0 (fun k h1 h2 => ?_) hlen n (by omega)
        have := hno k h1 (by omega)
        rwa [show ds.dropLast.take k = ds.take k by rw [List.dropLast_eq_take, List.take_take]; congr 1; omega]

/-- C221. In a source directory (any absolute path without empty names) the top is the nearest directory at or above that has a deptool.config. It is found in as many rounds as there are names between. -/
theorem root_nearest_partial (T : Trees) (w : Place) (cs ds : List Text) (hd : ∀ d ∈ ds, Name d) (hne : cs ≠ []) (hcwd : w.cwd = path (cs ++ ds))
    (hsrc : (∃ r, w.cwd = T.projects ++ '/' :: r) ∨ w.mtn = true) (ht : Top w cs) (hno : ∀ k, 0 < k → k ≤ ds.length → ¬ Top w (cs ++ ds.take k)) :
    ∀ n, ds.length < n → rootSrcDir T w n = .found (path cs) := by
  intro n hn
  have : srcDir T w = some (w.cwd, none) := by
    unfold srcDir
    rcases hsrc with ⟨r, h⟩ | h
    · rw [if_pos]
      unfold Verif.Deptool.CMake.strip
      rw [if_pos]; · rfl
      rw [h, List.isPrefixOf_iff_prefix]
      exact ⟨r, by simp⟩
    · rw [if_pos h]; split <;> rfl
  unfold rootSrcDir
  rw [this, hcwd]
  exact loop_found w cs ds hd hne ht hno n hn

/-- … and if none has one, there is an error message, after as many rounds as the path has names. (The file /deptool.config is not looked for.) -/
theorem root_none_partial (T : Trees) (w : Place) (ds : List Text) (hd : ∀ d ∈ ds, Name d) (hne : ds ≠ []) (hcwd : w.cwd = path ds) (hno : ∀ k, 0 < k → k ≤ ds.length → ¬ Top w (ds.take k))
    (hsrc : (∃ r, w.cwd = T.projects ++ '/' :: r) ∨ w.mtn = true) : ∀ n, ds.length ≤ n → rootSrcDir T w n = .die := by
  intro n hn
  have : srcDir T w = some (w.cwd, none) := by
    unfold srcDir
    rcases hsrc with ⟨r, h⟩ | h
    · rw [if_pos]
      unfold Verif.Deptool.CMake.strip
      rw [if_pos]; · rfl
      rw [h, List.isPrefixOf_iff_prefix]
      exact ⟨r, by simp⟩
    · rw [if_pos h]; split <;> rfl
  unfold rootSrcDir
  rw [this, hcwd]
  exact loop_die w ds hd hne hno n hn

/-- In the build tree of the same name the answer is that of the source directory. -/
theorem root_build (T : Trees) (w : Place) (r : Text) (hb : w.cwd = T.debug ++ '/' :: r ∨ w.cwd = T.opt ++ '/' :: r ∧ ¬ (∃ q, w.cwd = T.debug ++ '/' :: q))
    (hp : ¬ ∃ q, w.cwd = T.projects ++ '/' :: q) (hm : w.mtn = false) (hdir : w.isDir (T.projects ++ '/' :: r) = true) (n : Nat) :
    rootSrcDir T w n = rootSrcDir T { w with cwd := T.projects ++ '/' :: r } n := by
  have hs : ∀ b s : Text, Verif.Deptool.CMake.strip b (b ++ '/' :: s) = some s := by
    intro b s
    unfold Verif.Deptool.CMake.strip
    rw [if_pos (by rw [List.isPrefixOf_iff_prefix]; exact ⟨s, by simp⟩)]
    simp
  have hn : ∀ b d : Text, (¬ ∃ q, d = b ++ '/' :: q) → Verif.Deptool.CMake.strip b d = none := by
    intro b d h
    unfold Verif.Deptool.CMake.strip
    rw [if_neg]
    rw [List.isPrefixOf_iff_prefix]
    rintro ⟨s, e⟩
    exact h ⟨s, by rw [← e]; simp⟩
  have hf : Verif.Deptool.CMake.fromBuild T.projects w.isDir r = some (T.projects ++ '/' :: r, none) := by
    unfold Verif.Deptool.CMake.fromBuild
    rw [if_pos hdir]
  have e1 : srcDir T w = some (T.projects ++ '/' :: r, none) := by
    unfold srcDir
    rw [hn _ _ hp, hm]
    rcases hb with h | ⟨h, h2⟩
    · rw [h, hs]; exact hf
    · rw [hn _ _ h2]; rw [h, hs]; exact hf
  have e2 : srcDir T { w with cwd := T.projects ++ '/' :: r } = some (T.projects ++ '/' :: r, none) := by
    unfold srcDir
    rw [show ({ w with cwd := T.projects ++ '/' :: r } : Place).cwd = T.projects ++ '/' :: r from rfl, hs]
    rfl
  unfold rootSrcDir
  rw [e1, e2]

/-- A path on which the substitution does nothing. -/
theorem up_slash (p : Text) : up (p ++ ['/']) = p ++ ['/'] := by
  unfold up
  rw [List.reverse_append]
  simp

/-- C221 is false with a slash at the end of `$PROJECTS`: in a build tree of a project without a deptool.config there is never an answer or a message. -/
theorem root_hang_false : ∃ (T : Trees) (w : Place), w.cwd = "/b/x/y".toList ∧ T.debug = "/b".toList ∧ T.projects = "/p/".toList ∧ (∀ p, w.isFile p = false) ∧ ∀ n, rootSrcDir T w n = .running := by
  refine ⟨⟨"/p/".toList, "/o".toList, "/b".toList⟩, ⟨"/b/x/y".toList, fun p => p = "/p//x/y".toList, fun _ => false, false⟩, rfl, rfl, rfl, fun _ => rfl, fun n => ?_⟩
  have h3 : ∀ n, loop (fun _ => false) n ['/', 'p', '/'] = .running := by
    intro n
    induction n with
    | zero => rfl
    | succ n ih =>
      rw [loop, if_neg (by decide), show up ['/', 'p', '/'] = ['/', 'p', '/'] from by decide, if_neg (by decide)]
      exact ih
  have h2 : ∀ n, loop (fun _ => false) n ['/', 'p', '/', '/', 'x'] = .running := by
    intro n
    cases n with
    | zero => rfl
    | succ n => rw [loop, if_neg (by decide), show up ['/', 'p', '/', '/', 'x'] = ['/', 'p', '/'] from by decide, if_neg (by decide)]; exact h3 n
  have h1 : ∀ n, loop (fun _ => false) n ['/', 'p', '/', '/', 'x', '/', 'y'] = .running := by
    intro n
    cases n with
    | zero => rfl
    | succ n => rw [loop, if_neg (by decide), show up ['/', 'p', '/', '/', 'x', '/', 'y'] = ['/', 'p', '/', '/', 'x'] from by decide, if_neg (by decide)]; exact h2 n
  exact h1 n

/-- Whatever the directory: from a path that ends with a slash nothing is ever found above. -/
theorem root_slash_false (w : Place) (p : Text) (h : w.isFile (p ++ ['/'] ++ "/deptool.config".toList) = false) : ∀ n, loop w.isFile n (p ++ ['/']) = .running := by
  intro n
  induction n with
  | zero => rfl
  | succ n ih =>
    rw [loop, if_neg (by rw [show tConfig = "/deptool.config".toList from rfl, h]; simp), up_slash, if_neg (by simp)]
    exact ih

/-- Two levels below the top of a project, in a checkout with its own file. -/
example : rootSrcDir ⟨"/p".toList, "/o".toList, "/b".toList⟩ ⟨"/p/x/src/y".toList, fun _ => true, fun f => f = "/p/x/deptool.config".toList, false⟩ 3 = .found "/p/x".toList := by decide
example : (∀ d ∈ ["src".toList, "y".toList], Name d) ∧ "/p/x/src/y".toList = path (["p".toList, "x".toList] ++ ["src".toList, "y".toList]) := by
  refine ⟨fun d hd => ?_, rfl⟩
  simp only [List.mem_cons, List.not_mem_nil, or_false] at hd
  rcases hd with rfl | rfl <;> exact ⟨by decide, by decide⟩
/-- In the build tree of it. -/
example : rootSrcDir ⟨"/p".toList, "/o".toList, "/b".toList⟩ ⟨"/b/x/src".toList, fun d => d = "/p/x/src".toList, fun f => f = "/p/x/deptool.config".toList, false⟩ 3 = .found "/p/x".toList := by decide
/-- Nowhere. -/
example : rootSrcDir ⟨"/p".toList, "/o".toList, "/b".toList⟩ ⟨"/p/x".toList, fun _ => true, fun _ => false, false⟩ 2 = .die := by decide

end Verif.DepVC.Root
